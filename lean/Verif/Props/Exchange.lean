import Verif.Props.Agree
import Verif.Props.Writer
import Verif.Props.Client
import Verif.Props.ClientReply
import Verif.Spec.Exchange
/-!
# C58: a client and a server of the library
-/
namespace Pillow.Props
open Pillow Pillow.Spec

/-! ## The client's side of the connection -/

theorem talk_snoc (l : List CEv) (e : CEv) : (l ++ [e]).foldl Talk.next {} = (l.foldl Talk.next {}).next e := by simp

theorem sends_said {l : List CEv} {x : Option (ClientRequest × Bool)} (h : Sends l x) :
    (l.foldl Talk.next {}).last = x.map Prod.fst ∧ ∀ q ∈ said l, Wire q.1 q.2 := by
  unfold said
  induction h with
  | nil => simp
  | accepted r _ ih => rw [talk_snoc]; exact ⟨rfl, ih.2⟩
  | write r data _ hw ih =>
    rw [talk_snoc]
    refine ⟨ih.1, ?_⟩
    intro q hq
    simp only [Talk.next, ih.1, List.mem_append] at hq
    rcases hq with hq | hq
    · exact ih.2 q hq
    · simp at hq; subst hq; exact hw
  | other e h1 h2 _ ih =>
    rw [talk_snoc]
    cases e with
    | accepted r => exact absurd rfl (h1 r)
    | write p d => exact absurd rfl (h2 p d)
    | connectToHost a b => exact ⟨ih.1, by simp [Talk.next]⟩
    | _ => exact ih

/-- **C58**: what a client writes to a connection are requests it was asked to make, each as a whole. -/
theorem C58_written (env : ClientEnv) (fuel : Nat) (onH onC onF : List (List UserCall)) (onK : List SockReply) (inputs : List CInput) :
    ∀ q ∈ said ((Client.new onH onC onF onK).run env fuel inputs).log, Wire q.1 q.2 := by
  obtain ⟨x, hx⟩ := C40_routing env fuel onH onC onF onK inputs
  exact (sends_said hx).2

theorem run_append (env : ClientEnv) (fuel : Nat) (c : Client) (a b : List CInput) : c.run env fuel (a ++ b) = (c.run env fuel a).run env fuel b := by
  simp [Client.run]

theorem wellServed_isRun {env : ClientEnv} {fuel : Nat} {c : Client} (h : WellServed env fuel c) :
    ∃ onH onC onF onK inputs, c = (Client.new onH onC onF onK).run env fuel inputs := by
  induction h with
  | new a b c d => exact ⟨a, b, c, d, [], rfl⟩
  | other i _ _ ih =>
    obtain ⟨a, b, c, d, is, rfl⟩ := ih
    exact ⟨a, b, c, d, is ++ [i], (run_append env fuel _ is [i]).symm⟩
  | response _ _ _ ih =>
    obtain ⟨a, b, c, d, is, rfl⟩ := ih
    exact ⟨a, b, c, d, is ++ _, (run_append env fuel _ is _).symm⟩
  | paced _ _ _ _ ih =>
    obtain ⟨a, b, c, d, is, rfl⟩ := ih
    exact ⟨a, b, c, d, is ++ _, (run_append env fuel _ is _).symm⟩
  | closed _ _ _ _ _ _ ih =>
    obtain ⟨a, b, c, d, is, rfl⟩ := ih
    exact ⟨a, b, c, d, is ++ _, (run_append env fuel _ is _).symm⟩
  | failed _ _ _ _ _ _ _ ih =>
    obtain ⟨a, b, c, d, is, rfl⟩ := ih
    exact ⟨a, b, c, d, is ++ _, (run_append env fuel _ is _).symm⟩
  | broken _ _ _ _ _ _ _ _ ih =>
    obtain ⟨a, b, c, d, is, rfl⟩ := ih
    exact ⟨a, b, c, d, is ++ _, (run_append env fuel _ is _).symm⟩

/-! ## The server's side -/

theorem frames_of : ∀ (qs : List (ClientRequest × Bytes)), (∀ q ∈ qs, Wire q.1 q.2 ∧ Askable q.1) →
    ∃ outs : List OutRequest, Frames outs (qs.map (·.2)).flatten ∧ outs.length = qs.length ∧ (∀ o ∈ outs, Writable o) ∧
      ∀ (i : Nat) (q : ClientRequest × Bytes) (o : OutRequest), qs[i]? = some q → outs[i]? = some o → ∃ host, HostValue q.1.url host ∧ o = outgoing q.1 host
  | [], _ => ⟨[], .nil, rfl, by simp, by simp⟩
  | q :: qs, h => by
    obtain ⟨outs, h1, h2, h3, h4⟩ := frames_of qs fun q' hq' => h q' (by simp [hq'])
    obtain ⟨⟨host, hh, hf⟩, ha⟩ := h q (by simp)
    refine ⟨outgoing q.1 host :: outs, .cons _ _ _ _ hf h1, by simp [h2], ?_, ?_⟩
    · intro o ho
      rcases List.mem_cons.1 ho with rfl | ho
      · exact ha host hh
      · exact h3 o ho
    · intro i q' o hq ho
      cases i with
      | zero => simp at hq ho; subst hq ho; exact ⟨host, hh, rfl⟩
      | succ i => exact h4 i q' o (by simpa using hq) (by simpa using ho)

/-- **C58**: a server that has received what a client has written to the connection, or a first part of it, shows the requests of the client, in order and
unchanged. -/
theorem C58_requests (qs : List (ClientRequest × Bytes)) (hq : ∀ q ∈ qs, Wire q.1 q.2 ∧ Askable q.1) (s : Conf) (hs : Reach Proper s)
    (hrecv : received (epoch s.c.log) <+: (qs.map (·.2)).flatten) (i : Nat) (v : ReqView) (hv : (readys (epoch s.c.log))[i]? = some v) :
    ∃ q, qs[i]? = some q ∧ Delivered q.1 v := by
  obtain ⟨outs, h1, h2, h3, h4⟩ := frames_of qs hq
  obtain ⟨reqs, k1, k2, k3⟩ := frames_requests h1 h3
  obtain ⟨reqs', rest, m1, m2, -⟩ := C13_exact_requests s hs
  obtain ⟨more, hmore⟩ := hrecv
  have m3 := Requests.append_rest m1 more
  rw [hmore] at m3
  have hpre : shownAll reqs' <+: shownAll reqs := by
    rcases Requests.unique k1 m3 with ⟨e, -⟩ | ⟨-, -, e⟩ | ⟨e, -, -⟩
    · rw [show shownAll reqs = shownAll reqs' from e]; exact List.prefix_refl _
    · exact absurd e not_complete_nil
    · exact e
  rw [m2] at hv
  have hi : (shownAll reqs)[i]? = some v := by
    obtain ⟨t, ht⟩ := hpre
    rw [← ht, List.getElem?_append_left (by obtain ⟨hlt, -⟩ := List.getElem?_eq_some_iff.1 hv; exact hlt)]
    exact hv
  have hlen : i < outs.length := by
    obtain ⟨hlt, -⟩ := List.getElem?_eq_some_iff.1 hi
    simp [shownAll] at hlt; omega
  have hlen' : i < qs.length := by omega
  obtain ⟨host, e1, e2⟩ := h4 i qs[i] outs[i] (List.getElem?_eq_getElem hlen') (List.getElem?_eq_getElem hlen)
  refine ⟨qs[i], List.getElem?_eq_getElem hlen', host, e1, ?_⟩
  rw [← e2]
  exact k3 i _ v (List.getElem?_eq_getElem hlen) hi

/-! ## HEAD -/

theorem head_char : ∀ b ∈ upperA ++ digitA ++ b!"$-_.", (lower b = 104 → b = 72) ∧ (lower b = 101 → b = 69) ∧ (lower b = 97 → b = 65) ∧ (lower b = 100 → b = 68) := by
  decide +kernel

theorem head_bytes {m : Bytes} (hm : ∀ b ∈ m, MethodChar b) : SameCI m b!"head" ↔ m = b!"HEAD" := by
  constructor
  · intro h
    unfold SameCI at h
    have hc : ∀ b ∈ m, (lower b = 104 → b = 72) ∧ (lower b = 101 → b = 69) ∧ (lower b = 97 → b = 65) ∧ (lower b = 100 → b = 68) := fun b hb => head_char b (hm b hb)
    match m, h, hc with
    | [a, b, c, d], h, hc =>
      have h : [lower a, lower b, lower c, lower d] = [104, 101, 97, 100] := h
      simp only [List.cons.injEq, and_true] at h
      obtain ⟨h1, h2, h3, h4⟩ := h
      rw [(hc a (by simp)).1 h1, (hc b (by simp)).2.1 h2, (hc c (by simp)).2.2.1 h3, (hc d (by simp)).2.2.2 h4]
    | [], h, _ => exact absurd (congrArg List.length h) (by simp)
    | [_], h, _ => exact absurd (congrArg List.length h) (by simp)
    | [_, _], h, _ => exact absurd (congrArg List.length h) (by simp)
    | [_, _, _], h, _ => exact absurd (congrArg List.length h) (by simp)
    | _ :: _ :: _ :: _ :: _ :: _, h, _ => exact absurd (congrArg List.length h) (by simp)
  · rintro rfl; decide

theorem delivered_head {r : ClientRequest} {v : ReqView} (h : Delivered r v) (ha : Askable r) : v.method = b!"HEAD" ↔ IsHead r := by
  obtain ⟨host, h1, h2⟩ := h
  have h3 : v.method = r.method.getD [] := h2.1
  have h4 := (ha host h1).method.2.2
  unfold IsHead
  rw [h3]
  exact (head_bytes h4).symm

/-! ## The answer -/

/-- A header of the response that is not one of the server's own is one of the handler's. -/
theorem sent_gzip {r : ReqView} {hs : Headers} {len : Option Bytes} {keep chunked : Bool} {x : Header} (h : x ∈ sentHeaders r hs len keep chunked)
    (hn : SameCI x.name b!"content-encoding") : x ∈ hs := by
  simp only [sentHeaders, List.mem_append, List.mem_filter] at h
  rcases h with (((h | h) | h) | h) | h
  · exact h.1
  · cases len with
    | none => cases h
    | some l => simp only [lengthPart, List.mem_singleton] at h; subst h; exact absurd (show SameCI b!"Content-Length" b!"content-encoding" from hn) (by decide)
  · unfold typePart at h
    split at h
    · rename_i t ht; simp only [List.mem_singleton] at h; subst h; exact (lastHeader_mem ht).1
    · split at h
      · simp only [List.mem_singleton] at h; subst h; exact absurd hn (by decide)
      · cases h
  · unfold connectionPart at h
    split at h
    · split at h
      · cases h
      · simp only [List.mem_singleton] at h; subst h; exact absurd hn (by decide)
    · simp only [List.mem_singleton] at h; subst h; exact absurd hn (by decide)
  · unfold encodingPart at h
    split at h
    · rename_i t ht
      split at h
      · cases h
      · simp only [List.mem_singleton] at h; subst h; exact (lastHeader_mem ht).1
    · cases h

theorem reports_as {env : ClientEnv} {hd : Prop} {before log : List CEv} {m : Response} (h : Reports env hd before log m) (hz : ¬ Gzipped m.head.shown ∨ env.inflate = none ∨ hd) :
    ReportsAs before log (num m.head.status) m.head.shown m.content := by
  obtain ⟨l₁, ct, l₂, all, h1, h2, h3, h4, h5⟩ := h
  rw [h5.2 hz] at h3 h4
  exact ⟨l₁, ct, l₂, h1, h2, h3, h4⟩

/-- The response to a HEAD request is its head. -/
theorem head_silent {s : Conf} (hr : Reach Proper s) {a b d : List Ev} {h : RespHead} {r : ReqView} (e : s.c.log = a ++ .head h :: b ++ .completed :: d) (hb : NoHead b)
    (hreq : (readys a).getLast? = some r) (hm : r.method = b!"HEAD") : contentOf b = [] ∧ wireOf (.head h :: b) = h.bytes := by
  have e' := e
  rw [List.append_assoc, List.cons_append] at e'
  obtain ⟨-, ph, hruns⟩ := reach_log hr
  obtain ⟨r', h1, -, h3, h4⟩ := head_split hruns e'
  obtain ⟨k1, k2, m, k3, k4⟩ := response_completed h4 hb
  obtain ⟨w, -⟩ := writing_path r' h b k3 k1
  rw [hreq] at h1
  cases h1
  have hq := w.head hm
  refine ⟨contentOf_nil fun x hx => ?_, ?_⟩
  · obtain ⟨bs, rfl⟩ := hq x hx; rfl
  · show h.bytes ++ (b.map Ev.wire).flatten = _
    have : ∀ x ∈ b.map Ev.wire, x = [] := by
      intro x hx
      obtain ⟨y, hy, rfl⟩ := List.mem_map.1 hx
      obtain ⟨bs, rfl⟩ := hq y hy; rfl
    rw [List.flatten_eq_nil_iff.2 this, List.append_nil]

theorem headers_of {v : ReqView} {h : RespHead} {hs : Headers} (e : hs = sentHeaders v h.headers ((if h.len = -1 then none else some h.len.toNat).map (digits 10)) h.keepAlive h.chunked)
    (hc : h.chunked = true → h.len = -1) (hl : 0 ≤ h.len ∨ h.chunked = true) : HeadersOf v h hs := by
  have hd := readNat_digits 10 (by decide) (by decide) h.len.toNat
  have hcan := canonical_digits 10 (by decide) (by decide) h.len.toNat
  refine ⟨_, hd, hcan, ?_⟩
  rw [e]
  cases hk : h.chunked with
  | true => rw [if_pos (hc hk)]; rfl
  | false =>
    rcases hl with h0 | h0
    · rw [if_neg (by omega)]; rfl
    · rw [hk] at h0; cases h0

/-- **C58**: a completed response of a server, that reaches a waiting client in any division, with other things happening in between, is what the
client reports. -/
theorem C58_answer (s : Conf) (hr : Reach Proper s) (a b d : List Ev) (h : RespHead) (v : ReqView)
    (e : s.c.log = a ++ .head h :: b ++ .completed :: d) (hb : NoHead b) (hreq : (readys a).getLast? = some v)
    (hl : Delimited h b) (hst : h.status ∈ rfcCodes) (h100 : h.status ≠ 100) {maj min : Bytes} (hv : VersionOf v maj min)
    (hp : ∀ x ∈ h.headers, PlainHeader x) (hsz : h.bytes.length ≤ 80 * 1024 - 2)
    (env : ClientEnv) (fuel : Nat) (c : Client) (hs : WellServed env fuel c) (hw : Awaiting c) (hm : v.method = b!"HEAD" ↔ IsHead c.request) (segs : List Bytes) (inputs : List CInput)
    (ha : Arrive segs inputs) (hseg : segs.flatten = wireOf (.head h :: b)) (hz : ¬ Gzipped h.headers ∨ env.inflate = none) :
    (∃ hs, HeadersOf v h hs ∧ ReportsAs c.log (c.run env fuel inputs).log h.status.toNat hs (contentOf b)) ∧ WellServed env fuel (c.run env fuel inputs) := by
  have hM : ∃ M : Response, Answers c.request M ∧ M.render = wireOf (.head h :: b) ∧ num M.head.status = h.status.toNat ∧ M.content = contentOf b ∧ HeadersOf v h M.head.shown := by
    have hd := readNat_digits 10 (by decide) (by decide) h.len.toNat
    have hcan := canonical_digits 10 (by decide) (by decide) h.len.toNat
    by_cases hhead : v.method = b!"HEAD"
    · have e' := e
      rw [List.append_assoc, List.cons_append] at e'
      have hch : h.chunked = true → h.len = -1 := by
        obtain ⟨-, ph, hruns⟩ := reach_log hr
        obtain ⟨r', h1, ⟨lenIn, st, hs, hl', hbh⟩, h3, h4⟩ := head_split hruns e'
        exact (buildHead_facts hbh).2
      have hlen : -1 ≤ h.len ∧ h.len < 2147483648 := by
        rcases hl with hl | hl
        · omega
        · have := hch hl.1; omega
      obtain ⟨H, g1, g2, g3, g4, g5, g6⟩ := head_grammar s hr a _ h e' v hreq hst hlen hv hp hsz
      obtain ⟨k1, k2⟩ := head_silent hr e hb hreq hhead
      exact ⟨⟨H, [], []⟩, ⟨fun hn => absurd (hm.1 hhead) hn, fun _ => ⟨g1, rfl, rfl⟩⟩, by rw [k2]; simp [Response.render, g2], g3, k1.symm, headers_of g4 hch (hl.imp (·.1) (·.1))⟩
    have hnh : ¬ IsHead c.request := fun hn => hhead (hm.2 hn)
    have hm := hhead
    cases hc : h.chunked with
    | true =>
      rcases hl with hl | hl
      · have e' := e
        rw [List.append_assoc, List.cons_append] at e'
        obtain ⟨-, ph, hruns⟩ := reach_log hr
        obtain ⟨r', h1, ⟨lenIn, st, hs, hl', hbh⟩, h3, h4⟩ := head_split hruns e'
        have := (buildHead_facts hbh).2 hc; omega
      · obtain ⟨M, h1, h2, h3, h4, h5⟩ := chunked_response s hr a b d h v e hb hreq hm hc hl.2 hst hv hp hsz
        exact ⟨M, answers_get hnh h1, h2, h3, h4, _, hd, hcan, by rw [h5, hc]; rfl⟩
    | false =>
      rcases hl with hl | ⟨hl, -⟩
      · obtain ⟨M, h1, h2, h3, h4, h5⟩ := known_response s hr a b d h v e hb hreq hm hl hst hv hp hsz
        exact ⟨M, answers_get hnh h1, h2, h3, h4, _, hd, hcan, by rw [h5, hc]; rfl⟩
      · rw [hc] at hl; cases hl
  obtain ⟨M, h1, h2, h3, h4, h5⟩ := hM
  have hpos : ∀ c ∈ rfcCodes, 0 < c := by decide
  have hn : num M.head.status ≠ 100 := by rw [h3]; have := hpos _ hst; omega
  refine ⟨⟨M.head.shown, h5, ?_⟩, C56_and_again env fuel c hs hw M h1 hn segs inputs ha (by rw [hseg, h2])⟩
  rw [← h3, ← h4]
  refine reports_as (C56_reports_the_response env fuel c hs hw M h1 hn segs inputs ha (by rw [hseg, h2])) (hz.imp (fun hz hg => hz ?_) Or.inl)
  obtain ⟨len, -, -, h5⟩ := h5
  obtain ⟨x, hx, hx1, hx2⟩ := hg
  rw [h5] at hx
  exact ⟨x, sent_gzip hx hx1, hx1, hx2⟩

/-! ## Both -/

theorem epoch_suffix (log : List Ev) : ∃ before, log = before ++ epoch log := by
  unfold epoch
  suffices h : ∀ (l pre acc : List Ev), log = pre ++ acc ++ l → ∃ before, log = before ++ l.foldl (fun acc e => if e = .init then [] else acc ++ [e]) acc from h log [] [] rfl
  intro l
  induction l with
  | nil => intro pre acc h; exact ⟨pre, by simpa using h⟩
  | cons e l ih =>
    intro pre acc h
    simp only [List.foldl_cons]
    split
    · exact ih (pre ++ acc ++ [e]) [] (by simpa using h)
    · exact ih pre (acc ++ [e]) (by simpa using h)

/-- **C58**, the whole exchange.  A client has written requests to a connection, the last of them `r`, and waits. The server at the other end has received
them (cut and timed in any way), has shown as many requests as were written, and has completed its response to the last one; the bytes of this response reach the client, cut and timed
in any way. Then the last request the handler was shown was `r`, and the client reports the handler's response. -/
theorem C58_round_trip (env : ClientEnv) (fuel : Nat) (c : Client) (hs : WellServed env fuel c) (hw : Awaiting c) (earlier : List (ClientRequest × Bytes)) (data : Bytes)
    (hsaid : said c.log = earlier ++ [(c.request, data)]) (hask : ∀ q ∈ said c.log, Askable q.1)
    (s : Conf) (hr : Reach Proper s) (hrecv : received (epoch s.c.log) <+: ((said c.log).map (·.2)).flatten)
    (a b d : List Ev) (h : RespHead) (e : epoch s.c.log = a ++ .head h :: b ++ .completed :: d) (hb : NoHead b) (hcount : (readys a).length = (said c.log).length)
    (hl : Delimited h b) (hst : h.status ∈ rfcCodes) (h100 : h.status ≠ 100) (hp : ∀ x ∈ h.headers, PlainHeader x) (hsz : h.bytes.length ≤ 80 * 1024 - 2)
    (segs : List Bytes) (inputs : List CInput) (ha : Arrive segs inputs) (hseg : segs.flatten = wireOf (.head h :: b)) (hz : ¬ Gzipped h.headers ∨ env.inflate = none) :
    ∃ v, (readys a).getLast? = some v ∧ Delivered c.request v ∧
      (∃ hs, HeadersOf v h hs ∧ ReportsAs c.log (c.run env fuel inputs).log h.status.toNat hs (contentOf b)) ∧ WellServed env fuel (c.run env fuel inputs) := by
  obtain ⟨onH, onC, onF, onK, is, hc⟩ := wellServed_isRun hs
  have hwire := C58_written env fuel onH onC onF onK is
  rw [← hc] at hwire
  have hlen : (readys a).length = earlier.length + 1 := by rw [hcount, hsaid]; simp
  obtain ⟨v, hv⟩ : ∃ v, (readys a).getLast? = some v := by
    cases hg : (readys a).getLast? with
    | none => rw [List.getLast?_eq_none_iff] at hg; rw [hg] at hlen; simp at hlen
    | some v => exact ⟨v, rfl⟩
  have hidx : (readys (epoch s.c.log))[earlier.length]? = some v := by
    have : readys (epoch s.c.log) = readys a ++ readys (.head h :: b ++ .completed :: d) := by rw [e]; simp [readys]
    rw [this, List.getElem?_append_left (by omega)]
    rw [List.getLast?_eq_getElem?, hlen] at hv
    simpa using hv
  obtain ⟨q, hq, hdel⟩ := C58_requests (said c.log) (fun q hq => ⟨hwire q hq, hask q hq⟩) s hr hrecv _ v hidx
  rw [hsaid] at hq
  have hqe : q = (c.request, data) := by simpa using hq.symm
  subst hqe
  obtain ⟨before, hbef⟩ := epoch_suffix s.c.log
  have e' : s.c.log = (before ++ a) ++ .head h :: b ++ .completed :: d := by
    rw [hbef, e]; simp
  have hreq : (readys (before ++ a)).getLast? = some v := by
    have : readys (before ++ a) = readys before ++ readys a := by simp [readys]
    rw [this, List.getLast?_append, hv]; rfl
  have hask' : Askable c.request := hask (c.request, data) (by rw [hsaid]; simp)
  obtain ⟨host, -, hrec⟩ := id hdel
  refine ⟨v, hv, hdel, ?_⟩
  exact C58_answer s hr (before ++ a) b d h v e' hb hreq hl hst h100 (maj := b!"1") (min := b!"1") ⟨by rw [hrec.2.2.1]; rfl, ⟨1, by decide +kernel, by decide⟩, ⟨1, by decide +kernel, by decide⟩⟩ hp hsz
    env fuel c hs hw (delivered_head hdel hask') segs inputs ha hseg hz

/-! ## Example -/

def demoWire : Bytes := b!"GET / HTTP/1.1\r\nHost: h\r\n\r\n"

theorem demo_askable : Askable (demoReq b!"GET") := by
  rintro host (⟨-, rfl⟩ | ⟨h, -⟩)
  · refine writable_intro _ b!"/" [] ⟨⟨[], rfl, .nil⟩, .inl ⟨rfl, by decide⟩⟩ ?_ ?_ ?_ (by decide) (by decide +kernel)
    · exact ⟨by decide, by decide, by simp [outgoing, demoReq, MethodChar, oneOf, upperA]⟩
    · simp only [outgoing, demoReq, List.mem_cons, List.not_mem_nil, or_false, forall_eq]
      exact ⟨by simp, by rintro b (rfl | rfl | rfl | rfl) <;> decide, by simp, by simp⟩
    · simp only [outgoing, demoReq, List.mem_cons, List.not_mem_nil, or_false, forall_eq]; decide
  · exact absurd rfl h

theorem demo_askable_head : Askable (demoReq b!"HEAD") := by
  rintro host (⟨-, rfl⟩ | ⟨h, -⟩)
  · refine writable_intro _ b!"/" [] ⟨⟨[], rfl, .nil⟩, .inl ⟨rfl, by decide⟩⟩ ?_ ?_ ?_ (by decide) (by decide +kernel)
    · exact ⟨by decide, by decide, by simp [outgoing, demoReq, MethodChar, oneOf, upperA]⟩
    · simp only [outgoing, demoReq, List.mem_cons, List.not_mem_nil, or_false, forall_eq]
      exact ⟨by simp, by rintro b (rfl | rfl | rfl | rfl) <;> decide, by simp, by simp⟩
    · simp only [outgoing, demoReq, List.mem_cons, List.not_mem_nil, or_false, forall_eq]; decide
  · exact absurd rfl h

/-- The hypotheses of `C58_round_trip` are met by a client that asks for `/`, and a server that receives the request in two pieces and answers `hello`; the answer comes back in two
pieces too, and the application takes the content as it comes. -/
example : ∃ (s : Conf) (a b d : List Ev) (h : RespHead), WellServed demoEnv 2 demoTaking ∧ Awaiting demoTaking ∧ ¬ IsHead demoTaking.request ∧ said demoTaking.log = [] ++ [(demoTaking.request, demoWire)] ∧
    (∀ q ∈ said demoTaking.log, Askable q.1) ∧ Reach Proper s ∧ received (epoch s.c.log) <+: ((said demoTaking.log).map (·.2)).flatten ∧
    epoch s.c.log = a ++ .head h :: b ++ .completed :: d ∧ NoHead b ∧ (readys a).length = (said demoTaking.log).length ∧ Delimited h b ∧ h.status ∈ rfcCodes ∧ h.status ≠ 100 ∧
    (∀ x ∈ h.headers, PlainHeader x) ∧ h.bytes.length ≤ 80 * 1024 - 2 ∧ ¬ Gzipped h.headers ∧
    (let pieces := [(wireOf (.head h :: b)).take 74, (wireOf (.head h :: b)).drop 74]
     pieces.flatten = wireOf (.head h :: b) ∧ Arrive pieces (pieces.flatMap fun x => [.arrive x, .readyRead]) ∧
     (demoTaking.run demoEnv 2 (pieces.flatMap fun x => [.arrive x, .readyRead])).log.drop demoTaking.log.length =
       [.headersCompleted 200 [⟨b!"X-Y", b!"z"⟩, ⟨b!"Content-Length", b!"5"⟩, ⟨b!"Content-Type", b!"text/plain"⟩], .contentReadyRead b!"he", .consumed b!"he",
        .contentReadyRead b!"llo", .consumed b!"llo", .finished .noError 200 [⟨b!"X-Y", b!"z"⟩, ⟨b!"Content-Length", b!"5"⟩, ⟨b!"Content-Type", b!"text/plain"⟩] []]) := by
  obtain ⟨t, h1, h2⟩ := exists_of_endsIn (allowed := Proper) (ls := [.init, .recv (demoWire.take 9), .call .processInput] ++ taus 1 ++ [.recv (demoWire.drop 9), .call .processInput] ++ taus 3 ++
      [.call (.writeResponse 200 [⟨b!"X-Y", b!"z"⟩] b!"hello")] ++ taus 7)
    (p := fun s => received (epoch s.c.log) == demoWire && match epoch s.c.log with
      | [x, y, .ready r, .head h, .body b, .completed] => (readys [x, y]).isEmpty && r.method == b!"GET" && h.len == 5 && h.status == 200 && h.headers == [⟨b!"X-Y", b!"z"⟩] &&
          b == b!"hello" && h.bytes == b!"HTTP/1.1 200 OK\r\nX-Y: z\r\nContent-Length: 5\r\nContent-Type: text/plain\r\n\r\n"
      | _ => false) (by decide +kernel)
  simp only [Bool.and_eq_true, beq_iff_eq] at h2
  obtain ⟨h3, h2⟩ := h2
  have hsaid : said demoTaking.log = [(demoTaking.request, demoWire)] := by decide +kernel
  split at h2
  · rename_i x y r h b e
    simp only [Bool.and_eq_true, beq_iff_eq] at h2
    obtain ⟨⟨⟨⟨⟨⟨k0, k1⟩, k3⟩, k4⟩, k5⟩, k6⟩, k7⟩ := h2
    have hw : wireOf (.head h :: [.body b]) = b!"HTTP/1.1 200 OK\r\nX-Y: z\r\nContent-Length: 5\r\nContent-Type: text/plain\r\n\r\nhello" := by
      rw [k6]; show h.bytes ++ (b!"hello" ++ []) = _; rw [k7]; rfl
    refine ⟨t, [x, y, .ready r], [.body b], [], h, demoTaking_served, demoTaking_awaiting, (by unfold IsHead; decide +kernel), hsaid, ?_, h1, ?_, by rw [e]; rfl, ?_, ?_, ?_, by rw [k4]; decide, by rw [k4]; decide, ?_,
      by rw [k7]; decide +kernel, ?_, ?_⟩
    · rw [hsaid]
      intro q hq
      simp only [List.mem_singleton] at hq
      subst hq
      have : demoTaking.request = demoReq b!"GET" := by decide +kernel
      rw [this]; exact demo_askable
    · rw [h3, hsaid]; simp
    · intro e he; simp at he; subst he; simp
    · rw [hsaid]
      have : readys [x, y, .ready r] = readys [x, y] ++ [r] := by
        rw [show [x, y, Ev.ready r] = [x, y] ++ [Ev.ready r] from rfl]; unfold readys; rw [List.filterMap_append]; rfl
      rw [this, List.isEmpty_iff.1 k0]; rfl
    · left; rw [k3]; decide
    · rw [k5]; intro x hx; simp only [List.mem_singleton] at hx; subst hx; exact demo_plain
    · rw [k5]; rintro ⟨x, hx, hx1, -⟩; simp only [List.mem_singleton] at hx; subst hx; exact absurd hx1 (by decide)
    · rw [hw]
      exact ⟨by decide +kernel, .segment _ (.segment _ .nil), by decide +kernel⟩
  · cases h2

end Pillow.Props
