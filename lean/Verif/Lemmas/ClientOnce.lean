import Verif.Lemmas.OnItsWay
import Verif.Lemmas.ClientReply
/-!
# What one input makes a client do: at most one request ends, and at most one is begun
-/
namespace Pillow
open Spec

/-- Events that neither begin nor end a request, and do not write or connect. -/
def CEv.Minor : CEv → Prop
  | .accepted _ | .finished .. | .write .. | .connectToHost .. => False
  | _ => True

def Minors (l : List CEv) : Prop := ∀ e ∈ l, e.Minor

theorem minors_nil : Minors [] := by intro e h; cases h
theorem minors_one {e : CEv} (h : e.Minor) : Minors [e] := by intro x hx; rw [List.mem_singleton.1 hx]; exact h
theorem minors_append {a b : List CEv} (ha : Minors a) (hb : Minors b) : Minors (a ++ b) := by
  intro e h; rcases List.mem_append.1 h with h | h
  · exact ha e h
  · exact hb e h

/-- The application does not abort in slots of `headersCompleted()` and `contentReadyRead()`, and connecting does not fail at once. -/
structure Scripts (c : Client) : Prop where
  headers : AbortFree c.onHeaders
  content : AbortFree c.onContent
  connect : ∀ x, .error x ∉ c.onConnect

theorem Scripts.same {c c' : Client} (h : Scripts c) (e1 : c'.onHeaders = c.onHeaders) (e2 : c'.onContent = c.onContent) (e3 : c'.onConnect = c.onConnect) : Scripts c' :=
  ⟨e1 ▸ h.headers, e2 ▸ h.content, e3 ▸ h.connect⟩

/-- What has happened since the log was `l0`. -/
inductive Course (l0 : List CEv) (c : Client) : Prop where
  | during (l : List CEv) : c.log = l0 ++ l → Minors l → c.responsePending = true → Course l0 c
  | after (l1 : List CEv) (e : CError) (st : Nat) (hs : Headers) (ct : Bytes) (l2 : List CEv) : c.log = l0 ++ l1 ++ .finished e st hs ct :: l2 → Minors l1 → Minors l2 →
      c.responsePending = false → Course l0 c

theorem Course.same {l0 : List CEv} {c c' : Client} (h : Course l0 c) (e1 : c'.log = c.log) (e2 : c'.responsePending = c.responsePending) : Course l0 c' := by
  cases h with
  | during l h1 h2 h3 => exact .during l (e1.trans h1) h2 (e2.trans h3)
  | after l1 e st hs ct l2 h1 h2 h3 h4 => exact .after l1 e st hs ct l2 (e1.trans h1) h2 h3 (e2.trans h4)

theorem Course.minor {l0 : List CEv} {c c' : Client} (h : Course l0 c) {e : CEv} (he : e.Minor) (e1 : c'.log = c.log ++ [e]) (e2 : c'.responsePending = c.responsePending) : Course l0 c' := by
  cases h with
  | during l h1 h2 h3 => exact .during (l ++ [e]) (by rw [e1, h1]; simp) (minors_append h2 (minors_one he)) (e2.trans h3)
  | after l1 x st hs ct l2 h1 h2 h3 h4 => exact .after l1 x st hs ct (l2 ++ [e]) (by rw [e1, h1]; simp) h2 (minors_append h3 (minors_one he)) (e2.trans h4)

structure Once (l0 : List CEv) (c : Client) : Prop where
  parsing : c.parsing = true
  scripts : Scripts c
  course : Course l0 c

theorem Once.same {l0 : List CEv} {c c' : Client} (h : Once l0 c) (e0 : c'.parsing = c.parsing) (e1 : c'.log = c.log) (e2 : c'.responsePending = c.responsePending) (e3 : c'.onHeaders = c.onHeaders)
    (e4 : c'.onContent = c.onContent) (e5 : c'.onConnect = c.onConnect) : Once l0 c' :=
  ⟨e0.trans h.parsing, h.scripts.same e3 e4 e5, h.course.same e1 e2⟩

theorem Once.minor {l0 : List CEv} {c c' : Client} (h : Once l0 c) {e : CEv} (he : e.Minor) (e0 : c'.parsing = c.parsing) (e1 : c'.log = c.log ++ [e]) (e2 : c'.responsePending = c.responsePending)
    (e3 : c'.onHeaders = c.onHeaders) (e4 : c'.onContent = c.onContent) (e5 : c'.onConnect = c.onConnect) : Once l0 c' :=
  ⟨e0.trans h.parsing, h.scripts.same e3 e4 e5, h.course.minor he e1 e2⟩

theorem makeRequest_once {l0 : List CEv} (em : Signal → Client → Client) {c : Client} (h : Once l0 c) (r : ClientRequest) :
    Once l0 (c.makeRequest em r) ∧ (c.makeRequest em r).responsePending = c.responsePending := by
  unfold Client.makeRequest
  split
  · exact ⟨h.minor (e := .refused r) trivial rfl rfl rfl rfl rfl rfl, rfl⟩
  · rw [if_pos h.parsing]
    exact ⟨h.minor (e := .deferred r) trivial rfl rfl rfl rfl rfl rfl, rfl⟩

theorem call_once {l0 : List CEv} (env : ClientEnv) (em : Signal → Client → Client) {c : Client} (h : Once l0 c) (u : UserCall) (hu : u = .abort → c.responsePending = false) :
    Once l0 (c.call env em u) ∧ (c.call env em u).responsePending = c.responsePending := by
  cases u with
  | request r => exact makeRequest_once em h r
  | abort =>
    show Once l0 (c.abort em) ∧ (c.abort em).responsePending = _
    have hp := hu rfl
    unfold Client.abort
    dsimp only
    rw [if_neg (by show ¬ c.responsePending = true; rw [hp]; simp)]
    exact ⟨h.minor (e := .abort) trivial rfl rfl rfl rfl rfl rfl, rfl⟩
  | consumeContent =>
    show Once l0 c.consumeContent ∧ c.consumeContent.responsePending = _
    unfold Client.consumeContent
    dsimp only
    split <;> exact ⟨h.minor (e := .consumed c.d.content) trivial rfl rfl rfl rfl rfl rfl, rfl⟩
  | followRedirection =>
    show Once l0 (c.followRedirection env em) ∧ (c.followRedirection env em).responsePending = _
    unfold Client.followRedirection
    dsimp only
    have h : Once l0 (c.add .followRedirection) := h.minor (e := .followRedirection) trivial rfl rfl rfl rfl rfl rfl
    split
    · exact ⟨h, rfl⟩
    · exact makeRequest_once em h _
  | setKeepAliveTimeout ms => exact ⟨h.same rfl rfl rfl rfl rfl rfl, rfl⟩
  | setReadBufferSize n => exact ⟨h.same rfl rfl rfl rfl rfl rfl, rfl⟩

theorem calls_once {l0 : List CEv} (env : ClientEnv) (em : Signal → Client → Client) : ∀ (l : List UserCall) {c : Client}, Once l0 c → (.abort ∈ l → c.responsePending = false) →
    Once l0 (l.foldl (Client.call env em) c) ∧ (l.foldl (Client.call env em) c).responsePending = c.responsePending
  | [], _, h, _ => ⟨h, rfl⟩
  | u :: l, c, h, hl => by
    obtain ⟨h1, h2⟩ := call_once env em h u (fun e => hl (by simp [e]))
    obtain ⟨h3, h4⟩ := calls_once env em l h1 (fun e => h2.trans (hl (by simp [e])))
    exact ⟨h3, h4.trans h2⟩

theorem abortFree_head {s : List (List UserCall)} (h : AbortFree s) : .abort ∉ s.headD [] := by
  cases s with
  | nil => simp
  | cons a s => exact h a (by simp)

theorem abortFree_tail {s : List (List UserCall)} (h : AbortFree s) : AbortFree s.tail := fun x hx => h x (List.mem_of_mem_tail hx)

/-- A signal, emitted while parsing. -/
theorem emit_once {l0 : List CEv} (env : ClientEnv) (n : Nat) (s : Signal) {c : Client} (h : Once l0 (c.add (c.shows s))) (hs : s = .finished → c.responsePending = false) :
    Once l0 (Client.emit env n s c) ∧ (Client.emit env n s c).responsePending = c.responsePending := by
  cases n with
  | zero => exact ⟨h, rfl⟩
  | succ n =>
    show Once l0 ((((c.add (c.shows s)).react s).1).foldl (Client.call env (Client.emit env n)) ((c.add (c.shows s)).react s).2) ∧ _
    cases s with
    | headers =>
      refine calls_once env _ _ (c := ((c.add (c.shows .headers)).react .headers).2) ⟨h.parsing, ⟨abortFree_tail h.scripts.headers, h.scripts.content, h.scripts.connect⟩, h.course.same rfl rfl⟩ ?_
      exact fun e => absurd e (abortFree_head h.scripts.headers)
    | content =>
      refine calls_once env _ _ (c := ((c.add (c.shows .content)).react .content).2) ⟨h.parsing, ⟨h.scripts.headers, abortFree_tail h.scripts.content, h.scripts.connect⟩, h.course.same rfl rfl⟩ ?_
      exact fun e => absurd e (abortFree_head h.scripts.content)
    | finished =>
      refine calls_once env _ _ (c := ((c.add (c.shows .finished)).react .finished).2) ⟨h.parsing, h.scripts.same rfl rfl rfl, h.course.same rfl rfl⟩ ?_
      exact fun _ => hs rfl

/-- The end of a message. -/
theorem complete_once {l0 : List CEv} (env : ClientEnv) (n : Nat) {c : Client} (h : Once l0 c) (hp : c.responsePending = true) : Once l0 (c.messageComplete (Client.emit env n)) := by
  rw [messageComplete_eq]
  split
  · obtain ⟨p, e⟩ := clear_eq { c with contentDecoder := none }
    rw [e]
    exact h.same rfl rfl rfl rfl rfl rfl
  · obtain ⟨k1, k2, k3, k4, k5, k6, k7, k8, k9, k10, k11, k12, k13⟩ := completing_facts c
    refine (emit_once env n .finished ⟨k2.trans h.parsing, h.scripts.same k7 k8 k13, ?_⟩ fun _ => k3).1
    have hl : ∃ x, c.completing.log = c.log ++ x ∧ Minors x := by
      unfold Client.completing
      dsimp only
      split
      · exact ⟨[.close], rfl, minors_one trivial⟩
      · split
        · exact ⟨[.close], rfl, minors_one trivial⟩
        · exact ⟨[], by simp, minors_nil⟩
    obtain ⟨x, hx, hxm⟩ := hl
    cases h.course with
    | during l h1 h2 h3 =>
      exact .after (l ++ x) c.completing.error c.completing.p.status c.completing.d.headers c.completing.d.content [] (by show c.completing.log ++ [_] = _; rw [hx, h1]; simp; rfl) (minors_append h2 hxm) minors_nil k3
    | after l1 e st hs ct l2 h1 h2 h3 h4 => rw [hp] at h4; cases h4

theorem clientCb_once {l0 : List CEv} (env : ClientEnv) (n : Nat) (k : Cb) (p : HParser) {c : Client} (hk : p.errno = .ok) (h : Once l0 c) (hp : c.responsePending = true) :
    Once l0 (clientCb env (Client.emit env n) k p c).2 ∧ ((clientCb env (Client.emit env n) k p c).1.errno ≠ .paused → (clientCb env (Client.emit env n) k p c).2.responsePending = true) := by
  have hf := emit_framed env n
  have add_once : ∀ {c : Client} (s : Signal), s ≠ .finished → Once l0 c → Once l0 (c.add (c.shows s)) := by
    intro c s hs h
    cases s with
    | headers => exact h.minor (e := c.shows .headers) trivial rfl rfl rfl rfl rfl rfl
    | content => exact h.minor (e := c.shows .content) trivial rfl rfl rfl rfl rfl rfl
    | finished => exact absurd rfl hs
  cases k with
  | messageBegin => exact ⟨h.same rfl rfl rfl rfl rfl rfl, fun _ => hp⟩
  | field bs => exact ⟨h.same rfl rfl rfl rfl rfl rfl, fun _ => hp⟩
  | value bs => exact ⟨h.same rfl rfl rfl rfl rfl rfl, fun _ => hp⟩
  | headersComplete =>
    show Once l0 (Client.headersComplete env (Client.emit env n) { c with p := p, parsing := true, d := c.d.push }) ∧
      ((Client.headersComplete env (Client.emit env n) { c with p := p, parsing := true, d := c.d.push }).p.errno ≠ .paused →
        (Client.headersComplete env (Client.emit env n) { c with p := p, parsing := true, d := c.d.push }).responsePending = true)
    have h0 : Once l0 { c with p := p, parsing := true, d := c.d.push } := h.same h.parsing.symm rfl rfl rfl rfl rfl
    have hp0 : ({ c with p := p, parsing := true, d := c.d.push } : Client).responsePending = true := hp
    have hk0 : ({ c with p := p, parsing := true, d := c.d.push } : Client).p.errno = .ok := hk
    generalize ({ c with p := p, parsing := true, d := c.d.push } : Client) = c0 at h0 hp0 hk0 ⊢
    unfold Client.headersComplete
    split
    · exact ⟨h0, fun _ => hp0⟩
    · rename_i hst
      dsimp only
      obtain ⟨h1, h2⟩ := emit_once env n .headers (add_once .headers (by simp) h0) (by simp)
      have hfr := hf .headers c0 h0.parsing
      generalize Client.emit env n .headers c0 = c1 at h1 h2 hfr ⊢
      have hp1 := h2.trans hp0
      have hc1 : c1.p = c0.p := by
        rcases hfr.2 with ⟨-, e⟩ | ⟨-, e, -⟩
        · exact e
        · rw [hp1] at e; cases e
      split
      · have h2 : Once l0 { c1 with p := c1.p.pause } := h1.same rfl rfl rfl rfl rfl rfl
        refine ⟨complete_once env n h2 hp1, fun hn => absurd ?_ hn⟩
        have hst' : ({ c1 with p := c1.p.pause } : Client).p.status ≠ 100 := by
          show c1.p.pause.status ≠ 100
          rw [pause_status, hc1]; exact hst
        rw [(messageComplete_framed hf (c := { c1 with p := c1.p.pause }) h1.parsing hst').2.2]
        show c1.p.pause.errno = .paused
        rw [hc1, pause_ok hk0]
      · split
        · exact ⟨h1.same rfl rfl rfl rfl rfl rfl, fun _ => hp1⟩
        · exact ⟨h1, fun _ => hp1⟩
  | body bs =>
    show Once l0 (Client.messageContent env (Client.emit env n) bs { c with p := p, parsing := true }) ∧ (_ → (Client.messageContent env (Client.emit env n) bs { c with p := p, parsing := true }).responsePending = true)
    rw [messageContent_eq]
    obtain ⟨ct, dec, e⟩ := storing_facts env bs { c with p := p, parsing := true }
    rw [e]
    have h0 : Once l0 ({ c with p := p, parsing := true, contentDecoder := dec, d := { c.d with content := c.d.content ++ ct } } : Client) := h.same h.parsing.symm rfl rfl rfl rfl rfl
    obtain ⟨h1, h2⟩ := emit_once env n .content (add_once .content (by simp) h0) (by simp)
    exact ⟨h1, fun _ => h2.trans hp⟩
  | messageComplete =>
    have h0 : Once l0 { c with p := p, parsing := true } := h.same h.parsing.symm rfl rfl rfl rfl rfl
    refine ⟨(complete_once env n h0 hp).same rfl rfl rfl rfl rfl rfl, fun hn => absurd ?_ hn⟩
    rcases (clientCb_tame env hf).tame .messageComplete p c hk with h | h
    · exact absurd ((congrArg HParser.errno h).trans hk) ((clientCb_tame env hf).done p c hk)
    · exact h.1

/-- Between the inputs. -/
structure After (l0 : List CEv) (c : Client) : Prop where
  parsing : c.parsing = false
  scripts : Scripts c
  course : Course l0 c

theorem inject_once {l0 : List CEv} (env : ClientEnv) (n : Nat) {c : Client} (h : After l0 c) (hp : c.responsePending = true) (data : Bytes) :
    After l0 (c.inject env (Client.emit env n) data).1 ∧ ((c.inject env (Client.emit env n) data).1.hasError = true → (c.inject env (Client.emit env n) data).1.responsePending = true) := by
  have h0 : Once l0 { c with parsing := true } := ⟨rfl, h.scripts.same rfl rfl rfl, h.course.same rfl rfl⟩
  have hf := emit_framed env n
  have h1 := (inv_execute (cb := clientCb env (Client.emit env n)) (Iok := fun c => Once l0 c ∧ c.responsePending = true) (Iany := fun c => Once l0 c) (fun _ h => h.1)
    (fun k p s hk hs => by
      obtain ⟨k1, k2⟩ := clientCb_once env n k p hk hs.1 hs.2
      refine ⟨k1, fun hn => ⟨?_, k1, k2 hn⟩⟩
      rcases (clientCb_tame env hf).tame k p s hk with e | e
      · exact (congrArg HParser.errno e).trans hk
      · exact absurd e.1 hn) (p := c.p) (s := { c with parsing := true }) ⟨h0, hp⟩ data)
  refine ⟨⟨rfl, h1.1.scripts.same rfl rfl rfl, h1.1.course.same rfl rfl⟩, fun he => ?_⟩
  refine (h1.2 fun hp => ?_).2
  have he : (Client.hasError { (execute (clientCb env (Client.emit env n)) c.p { c with parsing := true } data).2.1 with
    p := if (execute (clientCb env (Client.emit env n)) c.p { c with parsing := true } data).1.errno = .paused then { (execute (clientCb env (Client.emit env n)) c.p { c with parsing := true } data).1 with errno := .ok } else (execute (clientCb env (Client.emit env n)) c.p { c with parsing := true } data).1, parsing := false }) = true := he
  rw [if_pos hp] at he
  simp [Client.hasError] at he

/-! ## Requests -/

/-- `c'` is the client `c` after it has accepted the request `r`: it is written to the connection there is, or a new one is opened, and then it may have been written. -/
structure Opening (c : Client) (r : ClientRequest) (c' : Client) : Prop where
  pending : c'.responsePending = true
  request : c'.request = r
  parsing : c'.parsing = c.parsing
  scripts : Scripts c'
  shape : (∃ p d, c'.log = c.log ++ [.accepted r, .write p d] ∧ c'.sock.state = .connected ∧ c.sock.state = .connected) ∨
    (∃ k host port, Minors k ∧ ((c'.log = c.log ++ .accepted r :: k ++ [.connectToHost host port] ∧ (c'.sock.state = .connecting → c'.sock.rx = [])) ∨
      (∃ p d, c'.log = c.log ++ .accepted r :: k ++ [.connectToHost host port, .write p d] ∧ c'.sock.state = .connected)))

theorem reconnecting_facts (c : Client) : c.reconnecting.responsePending = c.responsePending ∧ c.reconnecting.request = c.request ∧ c.reconnecting.parsing = c.parsing ∧
    c.reconnecting.onHeaders = c.onHeaders ∧ c.reconnecting.onContent = c.onContent ∧ c.reconnecting.onConnect = c.onConnect ∧ (c.reconnecting.sock.state = .connecting → c.sock.state ≠ .connecting → c.reconnecting.sock.rx = []) := by
  unfold Client.reconnecting
  dsimp only
  split
  · refine ⟨rfl, rfl, rfl, rfl, rfl, rfl, ?_⟩
    simp only [Sock.connectToHost, Client.add]
    split
    · intro _ _; rfl
    · intro h1 _
      unfold Sock.disconnectFromHost at h1
      dsimp only at h1
      split at h1 <;> cases h1
  · refine ⟨rfl, rfl, rfl, rfl, rfl, rfl, ?_⟩
    simp only [Sock.connectToHost, Client.add]
    split
    · intro _ _; rfl
    · intro h1 h2; exact absurd h1 h2

theorem reconnecting_rx (c : Client) : c.reconnecting.sock.state = .connecting → c.reconnecting.sock.rx = [] := by
  by_cases h : c.sock.state = .connecting
  · unfold Client.reconnecting
    dsimp only
    rw [if_pos (by simp [h])]
    simp only [Sock.connectToHost, Client.add]
    split
    · intro _; rfl
    · intro h1
      unfold Sock.disconnectFromHost at h1
      dsimp only at h1
      split at h1 <;> cases h1
  · intro h1; exact (reconnecting_facts c).2.2.2.2.2.2 h1 h

theorem sendRequest_facts (c : Client) : c.sendRequest.request = c.request ∧ c.sendRequest.onHeaders = c.onHeaders ∧ c.sendRequest.onContent = c.onContent ∧ c.sendRequest.onConnect = c.onConnect := by
  unfold Client.sendRequest
  split
  · exact ⟨rfl, rfl, rfl, rfl⟩
  · dsimp only
    split <;> exact ⟨rfl, rfl, rfl, rfl⟩

theorem accepting_more (c : Client) (r : ClientRequest) : (c.accepting r).parsing = c.parsing ∧ (c.accepting r).onHeaders = c.onHeaders ∧ (c.accepting r).onContent = c.onContent ∧ (c.accepting r).onConnect = c.onConnect := by
  obtain ⟨p, e⟩ := clear_eq { (c.add (.accepted r)) with request := r, responsePending := true, error := .noError }
  unfold Client.accepting
  rw [e]
  exact ⟨rfl, rfl, rfl, rfl⟩

theorem accept_opening (em : Signal → Client → Client) {c : Client} (h : Scripts c) (r : ClientRequest) : Opening c r (c.accept em r) := by
  obtain ⟨a1, a2, a3, a4, -⟩ := accepting_facts c r
  obtain ⟨b1, b2, b3, b4⟩ := accepting_more c r
  rw [accept_eq]
  split
  · rename_i hc
    have hc0 : c.sock.state = .connected := ((reuses_iff c r).1 hc).1
    have hc : (c.accepting r).sock.state = .connected := a2 ▸ hc0
    generalize c.accepting r = c1 at *
    obtain ⟨k1, k2, k3⟩ := sendRequest_sock c1
    obtain ⟨m1, m2, m3, m4⟩ := sendRequest_facts c1
    obtain ⟨p, d, e⟩ := k3 a4
    exact ⟨k2.trans a4, m1.trans a1, (sendRequest_same c1).1.trans b1, h.same (m2.trans b2) (m3.trans b3) (m4.trans b4), .inl ⟨p, d, by rw [e, a3]; simp, by rw [k1]; exact hc, hc0⟩⟩
  · obtain ⟨r1, r2, r3, r4, r5, r6, -⟩ := reconnecting_facts (c.accepting r)
    have r7 := reconnecting_rx (c.accepting r)
    have r8 := reconnecting_log (c.accepting r)
    rw [a3] at r8
    generalize hk : (if (c.accepting r).sock.state = .unconnected then [] else [CEv.disconnectFromHost] : List CEv) = k at r8
    have hkm : Minors k := by
      subst hk; split
      · exact minors_nil
      · exact minors_one trivial
    generalize (c.accepting r).request.url.host = host at r8
    generalize (c.accepting r).request.url.portOr80 = port at r8
    have s1 := r1.trans a4
    have s2 := r2.trans a1
    have s3 := r3.trans b1
    have s4 := r4.trans b2
    have s5 := r5.trans b3
    have s6 := r6.trans b4
    generalize (c.accepting r).reconnecting = c2 at *
    have hs2 : Scripts c2 := h.same s4 s5 s6
    have hs3 : Scripts { c2 with onConnect := c2.onConnect.tail } := ⟨hs2.headers, hs2.content, fun x hx => hs2.connect x (List.mem_of_mem_tail hx)⟩
    have base : Opening c r { c2 with onConnect := c2.onConnect.tail } :=
      ⟨s1, s2, s3, hs3, .inr ⟨k, host, port, hkm, .inl ⟨by rw [show ({ c2 with onConnect := c2.onConnect.tail } : Client).log = c2.log from rfl, r8]; simp, r7⟩⟩⟩
    unfold Client.connectReply
    dsimp only
    split
    · split
      · exact base
      · obtain ⟨k1, k2, k3⟩ := sendRequest_sock { { c2 with onConnect := c2.onConnect.tail } with sock := { c2.sock with state := .connected } }
        obtain ⟨m1, m2, m3, m4⟩ := sendRequest_facts { { c2 with onConnect := c2.onConnect.tail } with sock := { c2.sock with state := .connected } }
        obtain ⟨p, d, e⟩ := k3 s1
        refine ⟨k2.trans s1, m1.trans s2, (sendRequest_same _).1.trans s3, hs3.same m2 m3 m4, .inr ⟨k, host, port, hkm, .inr ⟨p, d, ?_, by rw [k1]⟩⟩⟩
        have e' : _ = c2.log ++ [.write p d] := e
        rw [e', r8]; simp
      · rename_i x hx
        exfalso
        cases hc : c2.onConnect with
        | nil => rw [hc] at hx; cases hx
        | cons y ys =>
          rw [hc] at hx
          have hx : y = .error x := hx
          exact hs2.connect x (by rw [hc, hx]; simp)
    · exact base

/-! ## One input -/

/-- What an input makes a client do. -/
inductive Turn (c c' : Client) : Prop where
  /-- Nothing of importance. -/
  | stays (l : List CEv) : c'.log = c.log ++ l → Minors l → c'.responsePending = c.responsePending → Scripts c' → Turn c c'
  /-- The request ends. -/
  | ends (l1 : List CEv) (e : CError) (st : Nat) (hs : Headers) (ct : Bytes) (l2 : List CEv) : c.responsePending = true → c'.log = c.log ++ l1 ++ .finished e st hs ct :: l2 → Minors l1 → Minors l2 →
      c'.responsePending = false → Scripts c' → Turn c c'
  /-- … and another one that was put off begins. -/
  | renews (l1 : List CEv) (e : CError) (st : Nat) (hs : Headers) (ct : Bytes) (l2 : List CEv) (r : ClientRequest) (c1 : Client) : c.responsePending = true →
      c1.log = c.log ++ l1 ++ .finished e st hs ct :: l2 → Minors l1 → Minors l2 → Opening c1 r c' → Turn c c'
  /-- A request begins. -/
  | starts (l : List CEv) (r : ClientRequest) (c1 : Client) : c1.log = c.log ++ l → Minors l → c.responsePending = false → Opening c1 r c' → Turn c c'
  /-- The request is written. -/
  | writes (p : Bytes × Nat) (d : Bytes) : c'.log = c.log ++ [.write p d] → c.sock.state = .connecting → c'.sock.state = .connected → c.responsePending = true → c'.responsePending = true → c'.request = c.request →
      Scripts c' → Turn c c'
  /-- The request fails. -/
  | fails (l1 : List CEv) (e : CError) (st : Nat) (hs : Headers) (ct : Bytes) (l2 : List CEv) : c.responsePending = true → c'.log = c.log ++ l1 ++ .finished e st hs ct :: l2 → Minors l1 → e ≠ .noError → Turn c c'

theorem Turn.of {c d c' : Client} (h : Turn d c') (e1 : d.log = c.log) (e2 : d.responsePending = c.responsePending) (e3 : d.sock.state = c.sock.state ∧ d.request = c.request := by exact ⟨rfl, rfl⟩) : Turn c c' := by
  cases h with
  | stays l k1 k2 k3 k4 => exact .stays l (e1 ▸ k1) k2 (k3.trans e2) k4
  | ends l1 e st hs ct l2 k1 k2 k3 k4 k5 k6 => exact .ends l1 e st hs ct l2 (e2 ▸ k1) (e1 ▸ k2) k3 k4 k5 k6
  | renews l1 e st hs ct l2 r c1 k1 k2 k3 k4 k5 => exact .renews l1 e st hs ct l2 r c1 (e2 ▸ k1) (e1 ▸ k2) k3 k4 k5
  | starts l r c1 k1 k2 k3 k4 => exact .starts l r c1 (e1 ▸ k1) k2 (e2 ▸ k3) k4
  | writes p d k1 k2 k3 k4 k5 k6 k7 => exact .writes p d (e1 ▸ k1) (e3.1 ▸ k2) k3 (e2 ▸ k4) k5 (e3.2 ▸ k6) k7
  | fails l1 e st hs ct l2 k1 k2 k3 k4 => exact .fails l1 e st hs ct l2 (e2 ▸ k1) (e1 ▸ k2) k3 k4

theorem receive_turn (env : ClientEnv) (n : Nat) {c : Client} (ht : Top c) (hsc : Scripts c) (hp : c.responsePending = true) (data : Bytes) : Turn c (c.receive env (Client.emit env n) data) := by
  have hf := emit_framed env n
  unfold Client.receive
  dsimp only
  have h1 : After c.log (c.inject env (Client.emit env n) data).1 := (inject_once env n ⟨ht.parsing, hsc, .during [] (by simp) minors_nil hp⟩ hp data).1
  generalize (c.inject env (Client.emit env n) data).2 = k
  generalize (c.inject env (Client.emit env n) data).1 = c1 at h1 ⊢
  have key : ∀ c2 : Client, After c.log c2 → Turn c (if (!c2.responsePending && c2.pendingRequest.method.isSome) = true then { c2 with pendingRequest := {} }.makeRequest (Client.emit env n) c2.pendingRequest else c2) := by
    intro c2 h2
    obtain ⟨g1, g2, g3⟩ := h2
    cases g3 with
    | during l k1 k2 k3 =>
      rw [if_neg (by simp [k3])]
      exact .stays l k1 k2 (k3.trans hp.symm) g2
    | after l1 e st hs ct l2 k1 k2 k3 k4 =>
      split
      · rw [makeRequest_accept (c := { c2 with pendingRequest := {} }) k4 g1]
        exact .renews l1 e st hs ct l2 c2.pendingRequest { c2 with pendingRequest := {} } hp k1 k2 k3 (accept_opening (Client.emit env n) (c := { c2 with pendingRequest := {} }) (g2.same rfl rfl rfl) c2.pendingRequest)
      · exact .ends l1 e st hs ct l2 hp k1 k2 k3 k4 g2
  by_cases hp1 : c1.responsePending = true
  · rw [if_pos hp1]
    have h3 : After c.log (if !c1.hasError && decide (k < data.length) then (c1.inject env (Client.emit env n) (data.drop k)).1 else c1 : Client) ∧
        ((if !c1.hasError && decide (k < data.length) then (c1.inject env (Client.emit env n) (data.drop k)).1 else c1 : Client).hasError = true →
          (if !c1.hasError && decide (k < data.length) then (c1.inject env (Client.emit env n) (data.drop k)).1 else c1 : Client).responsePending = true) := by
      split
      · exact inject_once env n h1 hp1 _
      · exact ⟨h1, fun _ => hp1⟩
    generalize (if !c1.hasError && decide (k < data.length) then (c1.inject env (Client.emit env n) (data.drop k)).1 else c1 : Client) = c3 at h3 ⊢
    by_cases he : c3.hasError = true
    · rw [if_pos he]
      have hg := emit_log env n
      generalize hc4 : ({ (c3.add .close) with error := .responseInvalid, sock := c3.sock.close, responsePending := false } : Client) = c4
      have h4 := hg .finished c4
      have hfin : ∀ c5 : Client, c4.log ++ [c4.shows .finished] <+: c5.log →
          Turn c (if (!c5.responsePending && c5.pendingRequest.method.isSome) = true then { c5 with pendingRequest := {} }.makeRequest (Client.emit env n) c5.pendingRequest else c5) := by
        intro c5 h5
        have h6 : c4.log ++ [c4.shows .finished] <+: (if (!c5.responsePending && c5.pendingRequest.method.isSome) = true then { c5 with pendingRequest := {} }.makeRequest (Client.emit env n) c5.pendingRequest else c5 : Client).log := by
          split
          · exact h5.trans (makeRequest_log hg { c5 with pendingRequest := {} } _)
          · exact h5
        obtain ⟨t, h6⟩ := h6
        cases h3.1.course with
        | during l k1 k2 k3 =>
          refine .fails (l ++ [.close]) .responseInvalid c4.p.status c4.d.headers c4.d.content t hp ?_ (minors_append k2 (minors_one (e := .close) trivial)) (by simp)
          rw [← h6]
          subst hc4
          simp [Client.add, Client.shows, k1]
        | after l1 e st hs ct l2 k1 k2 k3 k4 =>
          rw [h3.2 he] at k4; cases k4
      exact hfin _ h4
    · rw [if_neg he]
      exact key _ h3.1
  · rw [if_neg hp1]
    exact key _ h1

theorem Scripts.step_same {c c' : Client} (h : Scripts c) (e : c' = c) : Scripts c' := e ▸ h

theorem readyRead_turn (env : ClientEnv) (n : Nat) {c : Client} (ht : Top c) (hsc : Scripts c) : Turn c (c.readyRead env (Client.emit env n)) := by
  unfold Client.readyRead
  by_cases hp : c.responsePending = true
  · rw [if_neg (by simp [hp])]
    split
    · exact .stays [] (by simp) minors_nil rfl hsc
    · dsimp only
      generalize (if c.sock.readBufferSize > 0 then c.sock.readBufferSize - c.d.content.length else c.sock.rx.length) = k
      split
      · exact .stays [] (by simp) minors_nil rfl hsc
      · exact (receive_turn env n (c := { c with sock := { c.sock with rx := c.sock.rx.drop k } }) (ht.same rfl rfl id) (hsc.same rfl rfl rfl) hp (c.sock.rx.take k)).of rfl rfl
  · rw [if_pos (by simp [hp])]
    exact .stays [.close] rfl (minors_one trivial) rfl (hsc.same rfl rfl rfl)

theorem makeRequest_turn (env : ClientEnv) (n : Nat) {c : Client} (ht : Top c) (hsc : Scripts c) (r : ClientRequest) : Turn c (c.makeRequest (Client.emit env n) r) := by
  by_cases hp : c.responsePending = true
  · unfold Client.makeRequest
    rw [if_pos hp]
    exact .stays [.refused r] rfl (minors_one trivial) rfl (hsc.same rfl rfl rfl)
  · have hp : c.responsePending = false := by simpa using hp
    rw [makeRequest_accept hp ht.parsing]
    exact .starts [] r c (by simp) minors_nil hp (accept_opening _ hsc r)

/-- One input: at most one request ends, and at most one is begun. -/
theorem turn_step (env : ClientEnv) (fuel : Nat) {c : Client} (ht : Top c) (hsc : Scripts c) (i : CInput) (hi : c.responsePending = true → Steady i) : Turn c (c.step env fuel i) := by
  cases i with
  | call u =>
    cases u with
    | request r => exact makeRequest_turn env fuel ht hsc r
    | abort =>
      have hp : c.responsePending = false := by
        cases h : c.responsePending with
        | false => rfl
        | true => exact absurd rfl (hi h)
      show Turn c (c.abort _)
      unfold Client.abort
      dsimp only
      rw [if_neg (by show ¬ c.responsePending = true; rw [hp]; simp)]
      exact .stays [.abort] rfl (minors_one trivial) rfl (hsc.same rfl rfl rfl)
    | consumeContent =>
      show Turn c c.consumeContent
      unfold Client.consumeContent
      dsimp only
      split <;> exact .stays [.consumed c.d.content] rfl (minors_one trivial) rfl (hsc.same rfl rfl rfl)
    | followRedirection =>
      show Turn c (c.followRedirection env _)
      unfold Client.followRedirection
      dsimp only
      split
      · exact .stays [.followRedirection] rfl (minors_one trivial) rfl (hsc.same rfl rfl rfl)
      · cases makeRequest_turn env fuel (c := c.add .followRedirection) (ht.same rfl rfl id) (hsc.same rfl rfl rfl)
          { (c.add .followRedirection).request with url := env.parseUrl (c.add .followRedirection).redirectionLocation } with
        | stays l k1 k2 k3 k4 => exact .stays (.followRedirection :: l) (by rw [k1]; simp [Client.add]) (minors_append (minors_one (e := .followRedirection) trivial) k2) k3 k4
        | ends l1 e st hs ct l2 k1 k2 k3 k4 k5 k6 => exact .ends (.followRedirection :: l1) e st hs ct l2 k1 (by rw [k2]; simp [Client.add]) (minors_append (minors_one (e := .followRedirection) trivial) k3) k4 k5 k6
        | renews l1 e st hs ct l2 r c1 k1 k2 k3 k4 k5 => exact .renews (.followRedirection :: l1) e st hs ct l2 r c1 k1 (by rw [k2]; simp [Client.add]) (minors_append (minors_one (e := .followRedirection) trivial) k3) k4 k5
        | starts l r c1 k1 k2 k3 k4 => exact .starts (.followRedirection :: l) r c1 (by rw [k1]; simp [Client.add]) (minors_append (minors_one (e := .followRedirection) trivial) k2) k3 k4
        | writes p d k1 k2 k3 k4 k5 k6 k7 =>
          exfalso
          by_cases hp : (c.add .followRedirection).responsePending = true
          · unfold Client.makeRequest at k1
            rw [if_pos hp] at k1
            have k1 : (c.add .followRedirection).log ++ [.refused _] = (c.add .followRedirection).log ++ [.write p d] := k1
            simp at k1
          · exact hp k4
        | fails l1 e st hs ct l2 k1 k2 k3 k4 => exact .fails (.followRedirection :: l1) e st hs ct l2 k1 (by rw [k2]; simp [Client.add]) (minors_append (minors_one (e := .followRedirection) trivial) k3) k4
    | setKeepAliveTimeout ms => exact .stays [] (by simp [Client.step, Client.call]) minors_nil rfl (hsc.same rfl rfl rfl)
    | setReadBufferSize n => exact .stays [] (by simp [Client.step, Client.call]) minors_nil rfl (hsc.same rfl rfl rfl)
  | connected =>
    simp only [Client.step]
    split
    · rename_i hc
      have hk := sendRequest_sock { c with sock := { c.sock with state := .connected } }
      obtain ⟨m1, m2, m3, m4⟩ := sendRequest_facts { c with sock := { c.sock with state := .connected } }
      by_cases hp : c.responsePending = true
      · obtain ⟨p, d, e⟩ := hk.2.2 hp
        exact .writes p d e hc (by rw [hk.1]) hp (hk.2.1.trans hp) m1 (hsc.same m2 m3 m4)
      · have e : Client.sendRequest { c with sock := { c.sock with state := .connected } } = { c with sock := { c.sock with state := .connected } } := by
          unfold Client.sendRequest
          exact if_pos (by simpa using hp)
        rw [e]
        exact .stays [] (by simp) minors_nil rfl (hsc.same rfl rfl rfl)
    · exact .stays [] (by simp) minors_nil rfl hsc
  | error b =>
    have hp : c.responsePending = false := by
      cases h : c.responsePending with
      | false => rfl
      | true => exact absurd (hi h) (by simp [Steady])
    simp only [Client.step, Client.deviceError]
    rw [if_pos (by simp [hp])]
    exact .stays [] (by simp) minors_nil rfl hsc
  | arrive bs =>
    simp only [Client.step]
    split
    · exact .stays [] (by simp) minors_nil rfl (hsc.same rfl rfl rfl)
    · exact .stays [] (by simp) minors_nil rfl hsc
  | readyRead => exact readyRead_turn env fuel ht hsc
  | disconnected => exact .stays [] (by simp [Client.step]) minors_nil rfl (hsc.same rfl rfl rfl)
  | unsent b => exact .stays [] (by simp [Client.step]) minors_nil rfl (hsc.same rfl rfl rfl)
  | timeout =>
    simp only [Client.step]
    split
    · exact .stays [] (by simp) minors_nil rfl hsc
    · exact (readyRead_turn env fuel (c := { c with timers := c.timers - 1 }) (ht.same rfl rfl id) (hsc.same rfl rfl rfl)).of rfl rfl
  | tick ms => exact .stays [] (by simp [Client.step]) minors_nil rfl (hsc.same rfl rfl rfl)

end Pillow
