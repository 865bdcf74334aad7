import Verif.Lemmas.ClientOpen
import Verif.Lemmas.ClientOnce
import Verif.Lemmas.ClientCut
/-!
# Requests that fail after `headersCompleted()`, and what the application does then
-/
namespace Pillow
open Spec

theorem flush_sig (s : QData) (m : Marks) : (flush qF qV qB s m).sig = s.sig := by
  unfold flush
  cases m.field <;> cases m.value <;> cases m.body <;> rfl

/-- What has been reported while some bytes are parsed. -/
theorem steps_exec {env : ClientEnv} {hd : Bool} {p x : HParser} {s y : QData} {u : Bytes} (h : Steps (quietCb env hd) QRel p s u x y) (hg : Good 0 p) (he : p.errno = .ok) (hu : u ≠ []) :
    (execute (quietCb env hd) p s u).2.1.sig = y.sig := by
  have hL := quietCb_laws env hd
  obtain ⟨-, e1, k1⟩ := h hg he
  have k := k1 [] 0
  rw [List.append_nil, execLoop_nil, leftover_eq hL (fresh_ok x) e1] at k
  rw [execute_loop he hu]
  have := k.state (Or.inl (by rw [k.parser]; exact e1))
  rw [this]
  exact flush_sig _ _

theorem exec_sig {env : ClientEnv} {hd : Bool} (p : HParser) (s : QData) (u : Bytes) : s.sig <+: (execute (quietCb env hd) p s u).2.1.sig := by
  refine (inv_execute (cb := quietCb env hd) (Iok := fun t => s.sig <+: t.sig) (Iany := fun t => s.sig <+: t.sig) (fun _ h => h) ?_ (List.prefix_refl _) u).1
  intro k q t hq ht
  have ha : s.sig <+: (quietCb env hd k q t).2.sig := by
    cases k with
    | headersComplete =>
      simp only [quietCb]
      split
      · exact ht.trans (List.prefix_append _ _)
      · unfold qHead
        split
        · exact ht
        · exact ht.trans (List.prefix_append _ _)
    | messageComplete => simp only [quietCb]; split <;> exact ht
    | _ => exact ht
  refine ⟨ha, fun hn => ⟨?_, ha⟩⟩
  rcases (quietCb_tame env hd).tame k q t hq with h | ⟨h, -⟩
  · rw [h]; exact hq
  · exact absurd h hn

theorem steps_sig {env : ClientEnv} {hd : Bool} {p x : HParser} {s y : QData} {u : Bytes} (h : Steps (quietCb env hd) QRel p s u x y) (hg : Good 0 p) (he : p.errno = .ok) : s.sig <+: y.sig := by
  have hL := quietCb_laws env hd
  by_cases hu : u = []
  · subst hu
    obtain ⟨k, -⟩ := steps_nil hL h hg he
    have := congrArg QData.sig k
    rw [flush_sig, flush_sig] at this
    rw [this]; exact List.prefix_refl _
  · rw [← steps_exec h hg he hu]
    exact exec_sig p s u

/-- Nothing is reported before the headers are complete. -/
theorem head_sig {env : ClientEnv} {hd : Bool} {h : RHead} (hw : h.Wf) {p0 p : HParser} {t0 t : QData} {passed : Bytes} (h2 : Await p0 t0) (m2 : Steps (quietCb env hd) QRel p0 t0 passed p t)
    {v : Bytes} (hv : h.render = passed ++ v) (hn : v ≠ []) : t.sig = [] := by
  have hL := quietCb_laws env hd
  have hq0 : p0 = at_ p0 .startRes p0.hstate p0.index p0.nread := by rw [← h2.state]; rfl
  have hsz := hw.size
  have hnr := h2.nread
  obtain ⟨hs', i', k⟩ := steps_head hL (MB := qBegin) (fun _ _ => rfl) h hw p0 h2.ok p0.hstate p0.index p0.nread t0 (by unfold maxHeaderSize; omega)
  rw [← hq0] at k
  obtain ⟨w, hw'⟩ : ∃ w, RHead.open_ h = passed ++ w := by
    rw [open_render] at hv
    rcases List.append_eq_append_iff.1 hv with ⟨a, k1, k2⟩ | ⟨a, k1, k2⟩
    · cases a with
      | nil => exact ⟨[], by rw [k1]; simp⟩
      | cons x a =>
        have k2 : ([10] : Bytes) = (x :: a) ++ v := k2
        have := congrArg List.length k2
        simp only [List.length_append, List.length_cons, List.length_nil] at this
        have := List.length_pos_iff.2 hn
        omega
    · exact ⟨a, k1⟩
  by_cases hp : passed = []
  · subst hp
    obtain ⟨k, -⟩ := steps_nil hL m2 h2.good h2.ok
    have := congrArg QData.sig k
    rw [flush_sig, flush_sig] at this
    rw [← this]; exact h2.sig
  · rw [hw'] at k
    obtain ⟨p1, s1, k1, k2, k3, k4, k5⟩ := Steps.split_both hL k hp h2.good h2.ok
    have e1 := steps_exec m2 h2.good h2.ok hp
    rw [k1] at e1
    have e2 := steps_sig k5 k2 k3
    rw [told_quiet] at e2
    have e3 : s1.sig <+: t0.sig := e2
    rw [h2.sig] at e3
    rw [← e1]
    exact List.prefix_nil.1 e3

theorem signals_headers {l : List CEv} {st : Nat} {hs : Headers} (h : .headersCompleted st hs ∈ l) : .headersCompleted st hs ∈ signals l := List.mem_filter.2 ⟨h, rfl⟩

/-- A beginning of an answer of which the application has been shown the headers. -/
theorem shown_clean {env : ClientEnv} {fuel : Nat} {c : Client} (ht : Top c) (hf : Fresh c) (h : Expecting c) {interims : List Response} {m : Response} {inputs : List CInput}
    (ha : Begun c.request interims m inputs) (hp : (c.run env fuel inputs).responsePending = true) {l : List CEv} (hl : (c.run env fuel inputs).log = c.log ++ l) {st : Nat} {hs : Headers} (hh : .headersCompleted st hs ∈ l)
    (hnf : ∀ e st hs ct, .finished e st hs ct ∉ l) :
    (¬ Gzipped hs ∨ env.inflate = none → Clean (c.run env fuel inputs)) ∧ st = num m.head.status ∧ hs = m.head.shown ∧ (c.run env fuel inputs).d.headers = m.head.shown ∧ (c.run env fuel inputs).p.status = num m.head.status := by
  obtain ⟨hd, d1, d2⟩ := fits_of ha.answers
  obtain ⟨t, h1, h2⟩ := awaiting_mid env true hd h.pending h.connected (by simp) (mellow_true h.onHeaders) (mellow_true h.onContent) d1 ht hf
  have hpos := await_pos (env := env) (O := interims) d2 ha.final h2 interims fun i hi => ⟨ha.continues i hi, hi⟩
  obtain ⟨more, hmore⟩ := ha.begins
  rcases run_paced_more (fuel := fuel) (more := more) d2 ha.final ha.steady h1 hpos (by rw [hf.rx, List.nil_append]; exact hmore) (by rw [List.length_map]; exact ha.few) with ⟨k, -⟩ | ⟨U, p, t', is, v, m1, m2, m3, m4⟩
  · exfalso
    obtain ⟨l1, ct, l2, all, k1, -⟩ := k.1
    rw [hl, List.append_assoc] at k1
    have k1 := List.append_cancel_left k1
    exact hnf .noError (num m.head.status) m.head.shown ct (by rw [k1]; simp)
  · generalize c.run env fuel inputs = c' at *
    have hsig : .headersCompleted st hs ∈ t'.sig := by
      obtain ⟨l', e1, e2, -⟩ := m1.told.log
      have e1 : c'.log = c.log ++ l' := e1
      rw [hl] at e1
      rw [← e2, ← List.append_cancel_left e1]
      exact signals_headers hh
    have head : ∀ (r : Response) (p0 : HParser) (t0 : QData) (passed v : Bytes), r.head.Wf → Await p0 t0 → Steps (quietCb env hd) QRel p0 t0 passed p t' → r.render = passed ++ v →
        ∃ u, passed = r.head.render ++ u ∧ r.wire = u ++ v := by
      intro r p0 t0 passed v hw q1 q2 q3
      have q3' : r.head.render ++ r.wire = passed ++ v := q3
      rcases List.append_eq_append_iff.1 q3' with ⟨a, k1, k2⟩ | ⟨a, k1, k2⟩
      · exact ⟨a, k1, k2⟩
      · by_cases ha : a = []
        · subst ha
          exact ⟨[], by rw [k1]; simp, by rw [List.nil_append]; simpa using k2.symm⟩
        · exfalso
          rw [head_sig hw q1 q2 k1 ha] at hsig
          cases hsig
    have hwf : m.head.Wf := by
      cases hd with
      | false => exact (show m.Wf from d2).head
      | true => exact (show m.head.Wf ∧ _ from d2).1
    cases m2 with
    | final v hlast htr =>
      obtain ⟨p0, t0, passed, q1, q2, q3⟩ := htr
      obtain ⟨u, k1, k2⟩ := head m p0 t0 passed v hwf q1 q2 q3
      cases hd with
      | true =>
        exfalso
        have e : m.wire = [] := (show _ ∧ _ ∧ _ from d2).2.1
        rw [e] at k2
        exact hlast.ne (List.append_eq_nil_iff.1 k2.symm).2
      | false =>
        subst k1
        obtain ⟨g1, g2, g3, g4, g5, g6, g7⟩ := body_told d2 ha.final q1 q2 k2 hlast.ne
        rw [g5] at hsig
        have hsig := List.mem_singleton.1 hsig
        injection hsig with e1 e2
        subst e1 e2
        exact ⟨fun hz => mid_clean m1 ⟨g1, g2, g3.trans (no_gzip hz), g4⟩, rfl, rfl, m1.told.headers.trans g6, by rw [m1.at_]; exact g7⟩
    | interim v i is hint htr hi _ =>
      obtain ⟨h0, x, y, k1, k2, k3⟩ := hint
      have e := Ends.whole k1 h0 k2 m1.good m1.ok []
      have k4 := exec_sig (env := env) (hd := hd) p t' (v ++ [])
      rw [e] at k4
      have k4 : t'.sig <+: y.sig := k4
      rw [k3.sig] at k4
      rw [List.prefix_nil.1 k4] at hsig
      cases hsig

/-- A client that has read nothing of an answer. -/
theorem unread_clean {env : ClientEnv} {fuel : Nat} {c : Client} (ht : Top c) (hf : Fresh c) (h : Expecting c) {interims : List Response} {m : Response} {inputs : List CInput}
    (ha : Begun c.request interims m inputs) {l : List CEv} (hl : (c.run env fuel inputs).log = c.log ++ l) (hnf : ∀ e st hs ct, .finished e st hs ct ∉ l)
    (hn : (incoming inputs).length ≤ (c.run env fuel inputs).sock.rx.length) :
    Clean (c.run env fuel inputs) ∧ taken l ++ (c.run env fuel inputs).d.content = [] := by
  obtain ⟨hd, d1, d2⟩ := fits_of ha.answers
  obtain ⟨t, h1, h2⟩ := awaiting_mid env true hd h.pending h.connected (by simp) (mellow_true h.onHeaders) (mellow_true h.onContent) d1 ht hf
  have hpos := await_pos (env := env) (O := interims) d2 ha.final h2 interims fun i hi => ⟨ha.continues i hi, hi⟩
  obtain ⟨more, hmore⟩ := ha.begins
  have hlen : (incoming inputs).length + more.length = (interims.map Response.render).flatten.length + m.render.length := by
    have := congrArg List.length hmore
    simpa using this
  rcases run_paced_more (fuel := fuel) (more := more) d2 ha.final ha.steady h1 hpos (by rw [hf.rx, List.nil_append]; exact hmore) (by rw [List.length_map]; exact ha.few) with ⟨k, -⟩ | ⟨U, p, t', is, v, m1, m2, m3, m4⟩
  · exfalso
    obtain ⟨l1, ct, l2, all, k1, -⟩ := k.1
    rw [hl, List.append_assoc] at k1
    have k1 := List.append_cancel_left k1
    exact hnf .noError (num m.head.status) m.head.shown ct (by rw [k1]; simp)
  · generalize c.run env fuel inputs = c' at *
    have hl3 : c'.sock.rx.length + more.length = is.flatten.length + v.length := by
      have := congrArg List.length m3
      simpa using this
    have start : ∀ (w v : Bytes), Trail env hd w p t' v → w.length ≤ v.length → Clean c' ∧ taken l ++ c'.d.content = [] := by
      rintro w v ⟨p0, t0, passed, q1, q2, rfl⟩ hle
      have hp : passed = [] := by
        rw [List.length_append] at hle
        exact List.length_eq_zero_iff.1 (by omega)
      subst hp
      obtain ⟨rfl, rfl⟩ := steps_det (quietCb_laws env hd) q2 (Steps.nil (quietCb_laws env hd) p0 t0) q1.good q1.ok (by unfold fresh; rw [q1.state]; rfl)
      refine ⟨mid_clean m1 ⟨q1.field, q1.value, q1.gz, q1.odd⟩, ?_⟩
      obtain ⟨l', e1, -, l3⟩ := m1.told.log
      have e1 : c'.log = c.log ++ l' := e1
      rw [hl] at e1
      have e1 := List.append_cancel_left e1
      subst e1
      rcases l3 with l3 | ⟨all, e2, -, l5⟩
      · rw [q1.odd] at l3; cases l3
      · rcases l5 with ⟨-, -, z⟩ | ⟨z, -⟩
        · exact e2.trans (z.trans q1.content)
        · rw [q1.gz] at z; cases z
    cases m2 with
    | final v hlast htr =>
      refine start _ v htr ?_
      simp only [List.flatten_nil, List.length_nil] at hl3
      omega
    | interim v i is hint htr hi _ =>
      refine start _ v htr ?_
      have h1 := mem_short ha.few hi
      rw [h1] at hlen
      simp only [List.length_cons, List.length_map] at m4
      have h2 : is = [] := List.length_eq_zero_iff.1 (by omega)
      subst h2
      simp only [List.map_cons, List.map_nil, List.flatten_cons, List.flatten_nil, List.append_nil] at hlen hl3
      omega

/-! ## What the application does when no request is pending and there is no connection -/

/-- The client has no request and no connection. -/
structure Loose (c : Client) : Prop where
  pending : c.responsePending = false
  parsing : c.parsing = false
  state : c.sock.state = .unconnected
  scripts : Scripts c

theorem Loose.same {c c' : Client} (h : Loose c) (e1 : c'.responsePending = c.responsePending) (e2 : c'.parsing = c.parsing) (e3 : c'.sock.state = c.sock.state) (e4 : c'.onHeaders = c.onHeaders)
    (e5 : c'.onContent = c.onContent) (e6 : c'.onConnect = c.onConnect) : Loose c' := ⟨e1.trans h.pending, e2.trans h.parsing, e3.trans h.state, h.scripts.same e4 e5 e6⟩

/-- `c'` is the client `c` after it has accepted the request `r`: a new connection is opened, then the request may have been written, and then nothing of importance has happened. -/
structure Dialing (c : Client) (r : ClientRequest) (c' : Client) : Prop where
  pending : c'.responsePending = true
  request : c'.request = r
  scripts : Scripts c'
  content : c'.d.content = []
  shape : ∃ host port k, Minors k ∧ (taken k = [] ∧ ∀ st hs, .headersCompleted st hs ∉ k) ∧ (c'.log = c.log ++ [.accepted r, .connectToHost host port] ++ k ∨
      (∃ p d, c'.log = c.log ++ [.accepted r, .connectToHost host port, .write p d] ++ k ∧ c'.sock.state = .connected))

theorem sendRequest_d (c : Client) : c.sendRequest.d = c.d := by
  unfold Client.sendRequest
  split
  · rfl
  · dsimp only
    split <;> rfl

theorem accept_dialing (em : Signal → Client → Client) {c : Client} (h : Scripts c) (hs : c.sock.state = .unconnected) (r : ClientRequest) : Dialing c r (c.accept em r) := by
  obtain ⟨a1, a2, a3, a4, -⟩ := accepting_facts c r
  obtain ⟨b1, b2, b3, b4⟩ := accepting_more c r
  have hd : (c.accepting r).d.content = [] := by
    obtain ⟨p, e⟩ := clear_eq { (c.add (.accepted r)) with request := r, responsePending := true, error := .noError }
    unfold Client.accepting
    rw [e]
  rw [accept_eq]
  rw [if_neg (by intro hc; have := ((reuses_iff c r).1 hc).1; rw [hs] at this; cases this)]
  obtain ⟨r1, r2, r3, r4, r5, r6, -⟩ := reconnecting_facts (c.accepting r)
  have r8 := reconnecting_log (c.accepting r)
  have r9 : (c.accepting r).reconnecting.d = (c.accepting r).d := by
    unfold Client.reconnecting
    dsimp only
    split <;> rfl
  rw [a3, a2, if_pos hs] at r8
  generalize (c.accepting r).request.url.host = host at r8
  generalize (c.accepting r).request.url.portOr80 = port at r8
  have s1 := r1.trans a4
  have s2 := r2.trans a1
  have s4 := r4.trans b2
  have s5 := r5.trans b3
  have s6 := r6.trans b4
  rw [← r9] at hd
  generalize (c.accepting r).reconnecting = c2 at *
  have hs2 : Scripts c2 := h.same s4 s5 s6
  have hs3 : Scripts { c2 with onConnect := c2.onConnect.tail } := ⟨hs2.headers, hs2.content, fun x hx => hs2.connect x (List.mem_of_mem_tail hx)⟩
  have base : Dialing c r { c2 with onConnect := c2.onConnect.tail } :=
    ⟨s1, s2, hs3, hd, host, port, [], minors_nil, ⟨rfl, by simp⟩, .inl (by rw [show ({ c2 with onConnect := c2.onConnect.tail } : Client).log = c2.log from rfl, r8]; simp)⟩
  unfold Client.connectReply
  dsimp only
  split
  · split
    · exact base
    · obtain ⟨k1, k2, k3⟩ := sendRequest_sock { { c2 with onConnect := c2.onConnect.tail } with sock := { c2.sock with state := .connected } }
      obtain ⟨m1, m2, m3, m4⟩ := sendRequest_facts { { c2 with onConnect := c2.onConnect.tail } with sock := { c2.sock with state := .connected } }
      obtain ⟨p, d, e⟩ := k3 s1
      refine ⟨k2.trans s1, m1.trans s2, hs3.same m2 m3 m4, by rw [sendRequest_d]; exact hd, host, port, [], minors_nil, ⟨rfl, by simp⟩, .inr ⟨p, d, ?_, by rw [k1]⟩⟩
      have e' : _ = c2.log ++ [.write p d] := e
      rw [e', r8]; simp
    · rename_i x hx
      exfalso
      cases hc : c2.onConnect with
      | nil => rw [hc] at hx; cases hx
      | cons y ys =>
        rw [hc] at hx
        have hx : y = .error x := hx
        exact hs2.connect x (by rw [hc, hx]; simp)
  · exact base

theorem Dialing.minor {c : Client} {r : ClientRequest} {c1 c2 : Client} (h : Dialing c r c1) {l : List CEv} (hl : Minors l) (ht : taken l = [] ∧ ∀ st hs, .headersCompleted st hs ∉ l) (e0 : c2.log = c1.log ++ l) (e1 : c2.responsePending = c1.responsePending)
    (e2 : c2.request = c1.request) (e3 : c2.d.content = []) (e4 : c2.sock.state = c1.sock.state) (e5 : c2.onHeaders = c1.onHeaders) (e6 : c2.onContent = c1.onContent) (e7 : c2.onConnect = c1.onConnect) :
    Dialing c r c2 := by
  obtain ⟨host, port, k, k1, k2, k3⟩ := h.shape
  refine ⟨e1.trans h.pending, e2.trans h.request, h.scripts.same e5 e6 e7, e3, host, port, k ++ l, minors_append k1 hl, ⟨by rw [taken_append, k2.1, ht.1]; rfl, fun st hs hm => (List.mem_append.1 hm).elim (k2.2 st hs) (ht.2 st hs)⟩, ?_⟩
  rcases k3 with k3 | ⟨p, d, k3, k4⟩
  · exact .inl (by rw [e0, k3]; simp)
  · exact .inr ⟨p, d, by rw [e0, k3]; simp, e4.trans k4⟩

theorem makeRequest_refused {c : Client} (em : Signal → Client → Client) (hp : c.responsePending = true) (r : ClientRequest) : c.makeRequest em r = c.add (.refused r) := by
  unfold Client.makeRequest
  rw [if_pos hp]

/-- The application goes on after it has made a request. -/
theorem dialing_call (env : ClientEnv) (em : Signal → Client → Client) {c : Client} {r : ClientRequest} {c1 : Client} (h : Dialing c r c1) {u : UserCall} (hu : u ≠ .abort) : Dialing c r (c1.call env em u) := by
  cases u with
  | request r' =>
    show Dialing c r (c1.makeRequest em r')
    rw [makeRequest_refused em h.pending]
    exact h.minor (l := [.refused r']) (minors_one trivial) ⟨rfl, by simp⟩ rfl rfl rfl h.content rfl rfl rfl rfl
  | abort => exact absurd rfl hu
  | consumeContent =>
    show Dialing c r c1.consumeContent
    have e : taken [.consumed c1.d.content] = [] := by rw [h.content]; rfl
    unfold Client.consumeContent
    dsimp only
    split <;> exact h.minor (l := [.consumed c1.d.content]) (minors_one trivial) ⟨e, by simp⟩ rfl rfl rfl rfl rfl rfl rfl rfl
  | followRedirection =>
    show Dialing c r (c1.followRedirection env em)
    unfold Client.followRedirection
    dsimp only
    have h1 : Dialing c r (c1.add .followRedirection) := h.minor (l := [.followRedirection]) (minors_one trivial) ⟨rfl, by simp⟩ rfl rfl rfl h.content rfl rfl rfl rfl
    split
    · exact h1
    · rw [makeRequest_refused em h1.pending]
      exact h1.minor (l := [.refused _]) (minors_one trivial) ⟨rfl, by simp⟩ rfl rfl rfl h1.content rfl rfl rfl rfl
  | setKeepAliveTimeout ms => exact h.minor (l := []) minors_nil ⟨rfl, by simp⟩ (by simp [Client.call]) rfl rfl h.content rfl rfl rfl rfl
  | setReadBufferSize n => exact h.minor (l := []) minors_nil ⟨rfl, by simp⟩ (by simp [Client.call]) rfl rfl h.content rfl rfl rfl rfl

/-- What comes after. -/
def Onward (c c' : Client) : Prop := (∃ l, c'.log = c.log ++ l ∧ Minors l ∧ Loose c') ∨ ∃ l r c1, c1.log = c.log ++ l ∧ Minors l ∧ Dialing c1 r c'

theorem Onward.after {c c1 c2 : Client} (h : Onward c1 c2) {l : List CEv} (e : c1.log = c.log ++ l) (hl : Minors l) : Onward c c2 := by
  rcases h with ⟨l', e1, h1, h2⟩ | ⟨l', r, c3, e1, h1, h2⟩
  · exact .inl ⟨l ++ l', by rw [e1, e]; simp, minors_append hl h1, h2⟩
  · exact .inr ⟨l ++ l', r, c3, by rw [e1, e]; simp, minors_append hl h1, h2⟩

theorem makeRequest_onward (em : Signal → Client → Client) {c : Client} (h : Loose c) (r : ClientRequest) : Onward c (c.makeRequest em r) := by
  rw [makeRequest_accept h.pending h.parsing]
  exact .inr ⟨[], r, c, by simp, minors_nil, accept_dialing em h.scripts h.state r⟩

theorem loose_call (env : ClientEnv) (em : Signal → Client → Client) {c : Client} (h : Loose c) (u : UserCall) : Onward c (c.call env em u) := by
  cases u with
  | request r => exact makeRequest_onward em h r
  | abort =>
    show Onward c (c.abort em)
    unfold Client.abort
    dsimp only
    rw [if_neg (by show ¬ c.responsePending = true; rw [h.pending]; simp)]
    exact .inl ⟨[.abort], rfl, minors_one trivial, h.pending, h.parsing, rfl, h.scripts.same rfl rfl rfl⟩
  | consumeContent =>
    show Onward c c.consumeContent
    unfold Client.consumeContent
    dsimp only
    split <;> exact .inl ⟨[.consumed c.d.content], rfl, minors_one trivial, h.same rfl rfl rfl rfl rfl rfl⟩
  | followRedirection =>
    show Onward c (c.followRedirection env em)
    unfold Client.followRedirection
    dsimp only
    have h1 : Loose (c.add .followRedirection) := h.same rfl rfl rfl rfl rfl rfl
    split
    · exact .inl ⟨[.followRedirection], rfl, minors_one trivial, h1⟩
    · exact (makeRequest_onward em h1 _).after (l := [.followRedirection]) rfl (minors_one trivial)
  | setKeepAliveTimeout ms => exact .inl ⟨[], by simp [Client.call], minors_nil, h.same rfl rfl rfl rfl rfl rfl⟩
  | setReadBufferSize n => exact .inl ⟨[], by simp [Client.call], minors_nil, h.same rfl rfl rfl rfl rfl rfl⟩

theorem dialing_calls (env : ClientEnv) (em : Signal → Client → Client) {c : Client} {r : ClientRequest} : ∀ {us : List UserCall} {c1 : Client}, Dialing c r c1 → .abort ∉ us → Dialing c r (us.foldl (Client.call env em) c1)
  | [], _, h, _ => h
  | u :: us, _, h, hu => dialing_calls env em (us := us) (dialing_call env em h (fun e => hu (by simp [e]))) fun e => hu (by simp [e])

theorem loose_calls (env : ClientEnv) (em : Signal → Client → Client) : ∀ {us : List UserCall} {c : Client}, Loose c → .abort ∉ us → Onward c (us.foldl (Client.call env em) c)
  | [], c, h, _ => .inl ⟨[], by simp, minors_nil, h⟩
  | u :: us, c, h, hu => by
    rcases loose_call env em h u with ⟨l, h1, h2, h3⟩ | ⟨l, r, c1, h1, h2, h3⟩
    · exact (loose_calls env em (us := us) h3 fun e => hu (by simp [e])).after h1 h2
    · exact .inr ⟨l, r, c1, h1, h2, dialing_calls env em (us := us) h3 fun e => hu (by simp [e])⟩

/-- Anything, while there is neither a request nor a connection. -/
theorem loose_step (env : ClientEnv) (fuel : Nat) {c : Client} (h : Loose c) (i : CInput) : Onward c (c.step env fuel i) := by
  have hread : ∀ {c : Client}, Loose c → Onward c (c.readyRead env (Client.emit env fuel)) := by
    intro c h
    unfold Client.readyRead
    rw [if_pos (by simp [h.pending])]
    refine .inl ⟨[.close], rfl, minors_one trivial, h.pending, h.parsing, ?_, h.scripts.same rfl rfl rfl⟩
    show (if c.sock.state ≠ .unconnected ∧ c.sock.unsent then SockState.closing else .unconnected) = _
    rw [if_neg (fun k => k.1 h.state)]
  have same : Onward c c := .inl ⟨[], by simp, minors_nil, h⟩
  cases i with
  | call u => exact loose_call env _ h u
  | connected => simp only [Client.step]; rw [if_neg (by rw [h.state]; simp)]; exact same
  | error b => simp only [Client.step, Client.deviceError]; rw [if_pos (by simp [h.pending])]; exact same
  | arrive bs => simp only [Client.step]; rw [if_neg (by rw [h.state]; simp)]; exact same
  | readyRead => exact hread h
  | disconnected => exact .inl ⟨[], by simp [Client.step], minors_nil, h.pending, h.parsing, rfl, h.scripts.same rfl rfl rfl⟩
  | unsent b => exact .inl ⟨[], by simp [Client.step], minors_nil, h.same rfl rfl rfl rfl rfl rfl⟩
  | timeout =>
    simp only [Client.step]
    split
    · exact same
    · exact (hread (c := { c with timers := c.timers - 1 }) (h.same rfl rfl rfl rfl rfl rfl)).after (c := c) (l := []) (by simp) minors_nil
  | tick ms => exact .inl ⟨[], by simp [Client.step], minors_nil, h.same rfl rfl rfl rfl rfl rfl⟩

/-- The failure of a request, and what the application does when it is told. -/
theorem fail_step (env : ClientEnv) (fuel : Nat) {c : Client} (hp : c.responsePending = true) (hpa : c.parsing = false) (hsc : Scripts c) {i : CInput} (hi : Failure i) (hse : Seasonable c i)
    (ha : .abort ∉ c.onFinished.headD []) : ∃ e c1, e.Minor ∧ taken [e] = [] ∧ c1.log = c.log ++ [e, .finished (errorOf i) c.p.status c.d.headers c.d.content] ∧ Loose c1 ∧ Onward c1 (c.step env fuel i) := by
  have tell : ∀ c1 : Client, Loose c1 → c1.onFinished = c.onFinished → ∃ c2, c2.log = c1.log ++ [c1.shows .finished] ∧ Loose c2 ∧ Onward c2 (Client.emit env fuel .finished c1) := by
    intro c1 h1 h2
    refine ⟨c1.add (c1.shows .finished), rfl, h1.same rfl rfl rfl rfl rfl rfl, ?_⟩
    have h3 : Loose (c1.add (c1.shows .finished)) := h1.same rfl rfl rfl rfl rfl rfl
    cases fuel with
    | zero => exact .inl ⟨[], by simp [Client.emit], minors_nil, h3⟩
    | succ n =>
      have h4 : Loose { (c1.add (c1.shows .finished)) with onFinished := c1.onFinished.tail } := h3.same rfl rfl rfl rfl rfl rfl
      exact (loose_calls env (Client.emit env n) (us := c1.onFinished.headD []) h4 (by rw [h2]; exact ha)).after (l := []) (by simp) minors_nil
  cases i with
  | error rc =>
    have hu : c.sock.unsent = false := hse
    have e : c.step env fuel (.error rc) = Client.emit env fuel .finished { (({ c with error := if rc then .remoteHostClosed else .network } : Client).add .close) with sock := c.sock.close, responsePending := false } := by
      show c.deviceError _ rc = _
      unfold Client.deviceError
      rw [if_neg (by simp [hp])]
    rw [e]
    have hL : Loose { (({ c with error := if rc then .remoteHostClosed else .network } : Client).add .close) with sock := c.sock.close, responsePending := false } := by
      refine ⟨rfl, hpa, ?_, hsc.same rfl rfl rfl⟩
      show (if c.sock.state ≠ .unconnected ∧ c.sock.unsent then SockState.closing else .unconnected) = _
      rw [hu]; simp
    obtain ⟨c2, t1, t2, t3⟩ := tell _ hL rfl
    refine ⟨.close, c2, trivial, rfl, ?_, t2, t3⟩
    rw [t1]
    show (c.log ++ [.close]) ++ [.finished (if rc then .remoteHostClosed else .network) c.p.status c.d.headers c.d.content] = _
    cases rc <;> simp [errorOf]
  | call u =>
    have hu : u = .abort := hi
    subst hu
    have e : c.step env fuel (.call .abort) = Client.emit env fuel .finished { (c.add .abort) with sock := c.sock.abort, p := c.p.pause, error := .aborted, responsePending := false } := by
      show c.abort _ = _
      unfold Client.abort
      exact if_pos hp
    rw [e]
    have hL : Loose { (c.add .abort) with sock := c.sock.abort, p := c.p.pause, error := .aborted, responsePending := false } := ⟨rfl, hpa, rfl, hsc.same rfl rfl rfl⟩
    have hst : c.p.pause.status = c.p.status := by
      unfold HParser.pause
      repeat' split
      all_goals rfl
    obtain ⟨c2, t1, t2, t3⟩ := tell _ hL rfl
    refine ⟨.abort, c2, trivial, rfl, ?_, t2, t3⟩
    rw [t1]
    show (c.log ++ [.abort]) ++ [.finished .aborted c.p.pause.status c.d.headers c.d.content] = _
    rw [hst]; simp [errorOf]
  | _ => exact hi.elim

end Pillow
