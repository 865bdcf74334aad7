import Verif.Lemmas.ClientRun
/-!
# The log only grows; requests that are put off
-/
namespace Pillow
open Spec

/-! ## Growth -/

/-- A signal is recorded before anything else. -/
def EmGrows (em : Signal → Client → Client) : Prop := ∀ s c, c.log ++ [c.shows s] <+: (em s c).log

theorem sendRequest_log (c : Client) : c.log <+: c.sendRequest.log := by
  unfold Client.sendRequest
  split
  · exact List.prefix_refl _
  · dsimp only
    split <;> exact List.prefix_append _ _

theorem pre {l k : List CEv} {e : CEv} (h : l ++ [e] <+: k) : l <+: k := (List.prefix_append _ _).trans h

theorem deviceError_log {em : Signal → Client → Client} (he : EmGrows em) (c : Client) (rc : Bool) : c.log <+: (c.deviceError em rc).log := by
  unfold Client.deviceError
  split
  · exact List.prefix_refl _
  · refine List.IsPrefix.trans ?_ (pre (he _ _))
    exact List.prefix_append _ _

theorem connectReply_log {em : Signal → Client → Client} (he : EmGrows em) (c : Client) : c.log <+: (c.connectReply em).log := by
  unfold Client.connectReply
  dsimp only
  split
  · split
    · exact List.prefix_refl _
    · exact sendRequest_log { { c with onConnect := c.onConnect.tail } with sock := { c.sock with state := .connected } }
    · exact deviceError_log he { c with onConnect := c.onConnect.tail } _
  · exact List.prefix_refl _

theorem accept_log {em : Signal → Client → Client} (he : EmGrows em) (c : Client) (r : ClientRequest) : c.log ++ [.accepted r] <+: (c.accept em r).log := by
  unfold Client.accept
  dsimp only
  obtain ⟨p, e1⟩ := clear_eq { (c.add (.accepted r)) with request := r, responsePending := true, error := .noError }
  have hlog : (Client.clear { (c.add (.accepted r)) with request := r, responsePending := true, error := .noError }).log = c.log ++ [.accepted r] := by rw [e1]; rfl
  generalize Client.clear { (c.add (.accepted r)) with request := r, responsePending := true, error := .noError } = c1 at hlog ⊢
  rw [← hlog]
  split
  · exact sendRequest_log _
  · refine List.IsPrefix.trans ?_ (connectReply_log he _)
    split
    · exact ⟨[.disconnectFromHost, .connectToHost c1.request.url.host c1.request.url.portOr80], by simp [Client.add]⟩
    · exact List.prefix_append _ _

theorem makeRequest_log {em : Signal → Client → Client} (he : EmGrows em) (c : Client) (r : ClientRequest) : c.log <+: (c.makeRequest em r).log := by
  unfold Client.makeRequest
  split
  · exact List.prefix_append _ _
  · split
    · exact List.prefix_append _ _
    · exact pre (accept_log he c r)

theorem call_log {em : Signal → Client → Client} (he : EmGrows em) (env : ClientEnv) (c : Client) (u : UserCall) : c.log <+: (c.call env em u).log := by
  cases u with
  | request r => exact makeRequest_log he c r
  | abort =>
    show c.log <+: (c.abort em).log
    unfold Client.abort
    dsimp only
    split
    · refine List.IsPrefix.trans ?_ (pre (he _ _))
      exact List.prefix_append _ _
    · exact List.prefix_append _ _
  | consumeContent =>
    show c.log <+: c.consumeContent.log
    unfold Client.consumeContent
    dsimp only
    split <;> exact List.prefix_append _ _
  | followRedirection =>
    show c.log <+: (c.followRedirection env em).log
    unfold Client.followRedirection
    dsimp only
    refine List.IsPrefix.trans (List.prefix_append c.log [.followRedirection]) ?_
    split
    · exact List.prefix_refl _
    · exact makeRequest_log he (c.add .followRedirection) _
  | setKeepAliveTimeout ms => exact List.prefix_refl _
  | setReadBufferSize n => exact List.prefix_refl _

theorem calls_log {em : Signal → Client → Client} (he : EmGrows em) (env : ClientEnv) : ∀ (l : List UserCall) (c : Client), c.log <+: (l.foldl (Client.call env em) c).log
  | [], _ => List.prefix_refl _
  | u :: l, c => (call_log he env c u).trans (calls_log he env l _)

theorem emit_log (env : ClientEnv) : ∀ n, EmGrows (Client.emit env n)
  | 0, _, _ => List.prefix_refl _
  | n + 1, s, c => by
    show c.log ++ [c.shows s] <+: ((((c.add (c.shows s)).react s).1).foldl (Client.call env (Client.emit env n)) ((c.add (c.shows s)).react s).2).log
    refine List.IsPrefix.trans ?_ (calls_log (emit_log env n) env _ _)
    cases s <;> exact List.prefix_refl _

/-- What `sendRequest` writes. -/
theorem sendRequest_writes {c : Client} (hp : c.responsePending = true) (hw : c.writer = { hasDevice := true })
    (hh : c.hostHeaderValue = [] ∨ c.hostHeaderValue = hostValue c.request.url) : ∃ data, c.sendRequest.log = c.log ++ [.write c.sock.peer data] ∧ Wire c.request data := by
  unfold Client.sendRequest
  have hn : ¬ (!c.responsePending) = true := by simp [hp]
  simp only [if_neg hn]
  generalize hcc : (if c.hostHeaderValue.isEmpty then { c with hostHeaderValue := hostValue c.request.url } else c) = c1
  have hf : c1.hostHeaderValue = hostValue c.request.url ∧ c1.writer = c.writer ∧ c1.request = c.request ∧ c1.log = c.log ∧ c1.sock = c.sock := by
    subst hcc
    split
    · exact ⟨rfl, rfl, rfl, rfl, rfl⟩
    · rename_i hn
      rcases hh with e | e
      · rw [e] at hn; exact absurd rfl hn
      · exact ⟨e, rfl, rfl, rfl, rfl⟩
  obtain ⟨hf1, hf2, hf3, hf4, hf5⟩ := hf
  obtain ⟨out, hw1, hw2⟩ := Props.write_frame c1.writer (outRequest c1.request c1.hostHeaderValue) (by rw [hf2, hw]) (by rw [hf2, hw])
  rw [hf1, hf3] at hw2
  refine ⟨out.flatten, ?_, outRequest_wire _ _ hw2⟩
  rw [hw1]
  show c1.log ++ [.write c1.sock.peer out.flatten] = _
  rw [hf4, hf5]

/-- The client when a request has been accepted, … -/
def Client.accepting (c : Client) (r : ClientRequest) : Client := Client.clear { (c.add (.accepted r)) with request := r, responsePending := true, error := .noError }

/-- … and when a connection for it has been asked for. -/
def Client.reconnecting (c : Client) : Client :=
  let c := { c with hostHeaderValue := [] }
  let c := if c.sock.state != .unconnected then { (c.add .disconnectFromHost) with sock := c.sock.disconnectFromHost } else c
  { (c.add (.connectToHost c.request.url.host c.request.url.portOr80)) with sock := c.sock.connectToHost c.request.url.host c.request.url.portOr80 }

theorem accept_eq (em : Signal → Client → Client) (c : Client) (r : ClientRequest) :
    c.accept em r = if ((c.accepting r).sock.state == .connected && ((c.accepting r).request.url.host == c.request.url.host && (c.accepting r).request.url.port == c.request.url.port) &&
      !(((c.accepting r).request.url.host == c.request.url.host && (c.accepting r).request.url.port == c.request.url.port) && (c.accepting r).expired)) then (c.accepting r).sendRequest
      else (c.accepting r).reconnecting.connectReply em := rfl

theorem accepting_facts (c : Client) (r : ClientRequest) : (c.accepting r).request = r ∧ (c.accepting r).sock = c.sock ∧ (c.accepting r).log = c.log ++ [.accepted r] ∧
    (c.accepting r).responsePending = true ∧ (c.accepting r).writer = c.writer ∧ (c.accepting r).hostHeaderValue = c.hostHeaderValue ∧ (c.accepting r).expired = c.expired := by
  obtain ⟨p, e⟩ := clear_eq { (c.add (.accepted r)) with request := r, responsePending := true, error := .noError }
  unfold Client.accepting
  rw [e]
  exact ⟨rfl, rfl, rfl, rfl, rfl, rfl, rfl⟩

theorem reconnecting_log (c : Client) : c.reconnecting.log = c.log ++ (if c.sock.state = .unconnected then [] else [.disconnectFromHost]) ++ [.connectToHost c.request.url.host c.request.url.portOr80] := by
  unfold Client.reconnecting
  dsimp only
  by_cases h : c.sock.state = .unconnected
  · rw [if_neg (by simp [h]), if_pos h]; simp [Client.add]
  · rw [if_pos (by simpa using h), if_neg h]; simp [Client.add]

theorem reuses_iff (c : Client) (r : ClientRequest) :
    (((c.accepting r).sock.state == .connected && ((c.accepting r).request.url.host == c.request.url.host && (c.accepting r).request.url.port == c.request.url.port) &&
      !(((c.accepting r).request.url.host == c.request.url.host && (c.accepting r).request.url.port == c.request.url.port) && (c.accepting r).expired)) = true) ↔ Reuses c r := by
  obtain ⟨h1, h2, -, -, -, -, h7⟩ := accepting_facts c r
  rw [h1, h2, h7]
  unfold Reuses
  have hexp : c.expired = false ↔ ∀ t, c.timer = some t → 0 ≤ c.keepAliveTimeout → (c.now : Int) - t ≤ c.keepAliveTimeout := by
    unfold Client.expired
    cases ht : c.timer with
    | none => simp
    | some t =>
      simp only [Bool.and_eq_false_iff, decide_eq_false_iff_not, Option.some.injEq, forall_eq']
      constructor
      · rintro (h | h) h0 <;> omega
      · intro h
        by_cases h0 : 0 ≤ c.keepAliveTimeout
        · right; have := h h0; omega
        · left; omega
  rw [← hexp]
  simp only [Bool.and_eq_true, beq_iff_eq, Bool.not_eq_true']
  constructor
  · rintro ⟨⟨h1, h2, h3⟩, h4⟩
    refine ⟨h1, h2, h3, ?_⟩
    rw [Bool.and_eq_false_iff] at h4
    rcases h4 with h4 | h4
    · rw [h2, h3] at h4; simp at h4
    · exact h4
  · rintro ⟨h1, h2, h3, h4⟩
    exact ⟨⟨h1, h2, h3⟩, by rw [h4]; simp⟩

/-! ## Requests that are put off -/

/-- The request that waits. -/
def Client.waiting (c : Client) : Option ClientRequest := if c.pendingRequest.method = none then none else some c.pendingRequest

structure DInv (c : Client) : Prop where
  defs : Deferrals c.log c.waiting
  idle : c.responsePending = true ∨ c.parsing = false → c.pendingRequest.method = none

def EmD (em : Signal → Client → Client) : Prop := ∀ s c, DInv c → DInv (em s c)

/-- Events that are neither accepted nor deferred requests. -/
def CEv.Side : CEv → Prop
  | .accepted _ | .deferred _ => False
  | _ => True

theorem deferrals_side {l : List CEv} {x} {e : CEv} (he : e.Side) (h : Deferrals l x) : Deferrals (l ++ [e]) x :=
  .other e (by rintro r rfl; exact he) (by rintro r rfl; exact he) h

theorem DInv.same {c c' : Client} (h : DInv c) (hl : c'.log = c.log ∨ ∃ e : CEv, e.Side ∧ c'.log = c.log ++ [e]) (h1 : c'.pendingRequest = c.pendingRequest)
    (h2 : c'.responsePending = true ∨ c'.parsing = false → c.responsePending = true ∨ c.parsing = false) : DInv c' := by
  refine ⟨?_, fun hc => by rw [h1]; exact h.idle (h2 hc)⟩
  unfold Client.waiting
  rw [h1]
  rcases hl with e | ⟨e, hs, e'⟩
  · rw [e]; exact h.defs
  · rw [e']; exact deferrals_side hs h.defs

theorem sendRequest_log' (c : Client) : c.sendRequest.log = c.log ∨ ∃ e : CEv, e.Side ∧ c.sendRequest.log = c.log ++ [e] := by
  unfold Client.sendRequest
  split
  · exact Or.inl rfl
  · dsimp only
    split <;> exact Or.inr ⟨.write _ _, trivial, rfl⟩

theorem sendRequest_pending (c : Client) : c.sendRequest.pendingRequest = c.pendingRequest := by
  unfold Client.sendRequest
  split
  · rfl
  · dsimp only
    split <;> rfl

theorem DInv.send {c : Client} (h : DInv c) : DInv c.sendRequest := by
  obtain ⟨k1, k2, k3⟩ := sendRequest_same c
  exact h.same (sendRequest_log' c) (sendRequest_pending c) (by rw [k1, k3]; exact id)

/-- Outside the parser a signal may do anything to the flags. -/
theorem DInv.deviceError {em : Signal → Client → Client} (he : EmD em) {c : Client} (h : DInv c) (hp : c.parsing = false) (rc : Bool) : DInv (c.deviceError em rc) := by
  unfold Client.deviceError
  split
  · exact h
  · exact he _ _ (h.same (Or.inr ⟨.close, trivial, rfl⟩) rfl fun _ => Or.inr hp)

theorem DInv.connectReply {em : Signal → Client → Client} (he : EmD em) {c : Client} (h : DInv c) (hp : c.parsing = false) : DInv (c.connectReply em) := by
  unfold Client.connectReply
  dsimp only
  have h1 : DInv { c with onConnect := c.onConnect.tail } := h.same (Or.inl rfl) rfl id
  split
  · split
    · exact h1
    · exact DInv.send (h1.same (Or.inl rfl) rfl id)
    · exact h1.deviceError he hp _
  · exact h1

theorem DInv.accept {em : Signal → Client → Client} (he : EmD em) {c : Client} (hp : c.parsing = false) (r : ClientRequest)
    (hd : Deferrals c.log none ∨ Deferrals c.log (some r)) (hn : c.pendingRequest.method = none) : DInv (c.accept em r) := by
  unfold Client.accept
  dsimp only
  generalize hc1 : Client.clear { (c.add (.accepted r)) with request := r, responsePending := true, error := .noError } = c1
  have h1 : DInv c1 ∧ c1.parsing = false := by
    obtain ⟨p, e1⟩ := clear_eq { (c.add (.accepted r)) with request := r, responsePending := true, error := .noError }
    rw [hc1] at e1
    rw [e1]
    refine ⟨⟨?_, fun _ => hn⟩, hp⟩
    unfold Client.waiting
    rw [if_pos (by exact hn)]
    rcases hd with hd | hd
    · exact .direct r hd
    · exact .later r hd
  split
  · exact h1.1.send
  · have key : ∀ c2 : Client, DInv c2 → c2.parsing = false → DInv { (c2.add (.connectToHost c2.request.url.host c2.request.url.portOr80)) with sock := c2.sock.connectToHost c2.request.url.host c2.request.url.portOr80 } :=
      fun c2 h2 _ => h2.same (Or.inr ⟨.connectToHost _ _, trivial, rfl⟩) rfl id
    refine DInv.connectReply he ?_ ?_
    · refine key _ ?_ ?_
      · split
        · exact h1.1.same (Or.inr ⟨.disconnectFromHost, trivial, rfl⟩) rfl id
        · exact h1.1.same (Or.inl rfl) rfl id
      · split <;> exact h1.2
    · split <;> exact h1.2

theorem makeRequest_accept {em : Signal → Client → Client} {c : Client} (h : c.responsePending = false) (h' : c.parsing = false) (r : ClientRequest) :
    c.makeRequest em r = c.accept em r := by
  unfold Client.makeRequest
  rw [if_neg (by simp [h]), if_neg (by simp [h'])]

theorem DInv.makeRequest {em : Signal → Client → Client} (he : EmD em) {c : Client} (h : DInv c) (r : ClientRequest) : DInv (c.makeRequest em r) := by
  unfold Client.makeRequest
  split
  · exact h.same (Or.inr ⟨.refused r, trivial, rfl⟩) rfl id
  · rename_i hp
    split
    · rename_i hpa
      refine ⟨?_, fun hc => ?_⟩
      · unfold Client.waiting
        by_cases hm : r.method = none
        · rw [if_pos (by exact hm)]; exact .forgotten r h.defs hm
        · rw [if_neg (by exact hm)]; exact .deferred r h.defs hm
      · rcases hc with hc | hc
        · exact absurd hc hp
        · have hc : c.parsing = false := hc
          rw [hpa] at hc; cases hc
    · rename_i hpa
      have hpa : c.parsing = false := by simpa using hpa
      have hn := h.idle (Or.inr hpa)
      refine DInv.accept he hpa r (Or.inl ?_) hn
      have := h.defs
      unfold Client.waiting at this
      rwa [if_pos hn] at this

theorem DInv.call {em : Signal → Client → Client} (he : EmD em) (env : ClientEnv) {c : Client} (h : DInv c) (u : UserCall) : DInv (c.call env em u) := by
  cases u with
  | request r => exact h.makeRequest he r
  | abort =>
    show DInv (c.abort em)
    unfold Client.abort
    dsimp only
    split
    · rename_i hp
      exact he _ _ (h.same (Or.inr ⟨.abort, trivial, rfl⟩) rfl fun _ => Or.inl hp)
    · exact h.same (Or.inr ⟨.abort, trivial, rfl⟩) rfl id
  | consumeContent =>
    show DInv c.consumeContent
    unfold Client.consumeContent
    dsimp only
    split <;> exact h.same (Or.inr ⟨.consumed _, trivial, rfl⟩) rfl id
  | followRedirection =>
    show DInv (c.followRedirection env em)
    unfold Client.followRedirection
    dsimp only
    have h : DInv (c.add .followRedirection) := h.same (Or.inr ⟨.followRedirection, trivial, rfl⟩) rfl id
    split
    · exact h
    · exact h.makeRequest he _
  | setKeepAliveTimeout ms => exact h.same (Or.inl rfl) rfl id
  | setReadBufferSize n => exact h.same (Or.inl rfl) rfl id

theorem DInv.calls {em : Signal → Client → Client} (he : EmD em) (env : ClientEnv) : ∀ (l : List UserCall) {c : Client}, DInv c → DInv (l.foldl (Client.call env em) c)
  | [], _, h => h
  | u :: l, _, h => DInv.calls he env l (h.call he env u)

theorem emit_d (env : ClientEnv) : ∀ n, EmD (Client.emit env n)
  | 0, s, c, h => h.same (Or.inr ⟨c.shows s, by cases s <;> trivial, rfl⟩) rfl id
  | n + 1, s, c, h => by
    show DInv ((((c.add (c.shows s)).react s).1).foldl (Client.call env (Client.emit env n)) ((c.add (c.shows s)).react s).2)
    refine DInv.calls (emit_d env n) env _ ?_
    cases s
    · exact h.same (Or.inr ⟨c.shows .headers, trivial, rfl⟩) rfl id
    · exact h.same (Or.inr ⟨c.shows .content, trivial, rfl⟩) rfl id
    · exact h.same (Or.inr ⟨c.shows .finished, trivial, rfl⟩) rfl id

section
variable {em : Signal → Client → Client} (he : EmD em) (hf : EmFramed em) (env : ClientEnv)
include he hf

theorem DInv.messageComplete {c : Client} (h : DInv c) (hpa : c.parsing = true) : DInv (c.messageComplete em) := by
  rw [messageComplete_eq]
  split
  · obtain ⟨p, e⟩ := clear_eq { c with contentDecoder := none }
    rw [e]
    exact h.same (Or.inl rfl) rfl id
  · refine he _ _ ?_
    obtain ⟨k1, k2, k3, k4, k5, k6, k7, k8, k9, k10, k11, k12, k13⟩ := completing_facts c
    refine h.same ?_ k10 (fun hc => ?_)
    · unfold Client.completing
      dsimp only
      split
      · exact Or.inr ⟨.close, trivial, rfl⟩
      · split
        · exact Or.inr ⟨.close, trivial, rfl⟩
        · exact Or.inl rfl
    · rw [k2, k3, hpa] at hc
      rcases hc with hc | hc <;> cases hc

theorem clientCb_d : ∀ k p (c : Client), p.errno = .ok → DInv c ∧ c.parsing = true → DInv (clientCb env em k p c).2 ∧ (clientCb env em k p c).2.parsing = true := by
  intro k p c hk ⟨h, hpa⟩
  cases k with
  | messageBegin => exact ⟨h.same (Or.inl rfl) rfl id, hpa⟩
  | field bs => exact ⟨h.same (Or.inl rfl) rfl id, hpa⟩
  | value bs => exact ⟨h.same (Or.inl rfl) rfl id, hpa⟩
  | headersComplete =>
    refine ⟨?_, (headersComplete_p env hf (c := { c with p := p, parsing := true, d := c.d.push }) rfl hk).1⟩
    show DInv (Client.headersComplete env em { c with p := p, parsing := true, d := c.d.push })
    have h0 : DInv { c with p := p, parsing := true, d := c.d.push } := h.same (Or.inl rfl) rfl (by rw [hpa]; exact id)
    have h1 := he .headers _ h0
    have h1p := (hf .headers { c with p := p, parsing := true, d := c.d.push } rfl).1
    unfold Client.headersComplete
    split
    · exact h0
    · dsimp only
      generalize em .headers { c with p := p, parsing := true, d := c.d.push } = c1 at h1 h1p ⊢
      split
      · exact DInv.messageComplete he hf (c := { c1 with p := c1.p.pause }) (h1.same (Or.inl rfl) rfl id) h1p
      · split
        · exact h1.same (Or.inl rfl) rfl id
        · exact h1
  | body bs =>
    refine ⟨?_, (messageContent_p env hf (c := { c with p := p, parsing := true }) bs rfl).1⟩
    show DInv (Client.messageContent env em bs { c with p := p, parsing := true })
    rw [messageContent_eq]
    obtain ⟨ct, dec, e⟩ := storing_facts env bs { c with p := p, parsing := true }
    rw [e]
    exact he _ _ (h.same (Or.inl rfl) rfl (by rw [hpa]; exact id))
  | messageComplete =>
    have h0 : DInv { c with p := p, parsing := true } := h.same (Or.inl rfl) rfl (by rw [hpa]; exact id)
    refine ⟨(DInv.messageComplete he hf h0 rfl).same (Or.inl rfl) rfl id, ?_⟩
    show (Client.messageComplete em { c with p := p, parsing := true }).parsing = true
    by_cases hs : p.status = 100
    · rw [messageComplete_eq, if_pos hs]
      obtain ⟨q, e⟩ := clear_eq { c with p := p, parsing := true, contentDecoder := none }
      show (Client.clear { c with p := p, parsing := true, contentDecoder := none }).parsing = true
      rw [e]
    · exact (messageComplete_framed hf (c := { c with p := p, parsing := true }) rfl hs).1

/-- After the parser has run. -/
theorem DInv.inject {c : Client} (h : Deferrals c.log c.waiting ∧ (c.responsePending = true → c.pendingRequest.method = none)) (data : Bytes) :
    Deferrals (c.inject env em data).1.log (c.inject env em data).1.waiting ∧
      ((c.inject env em data).1.responsePending = true → (c.inject env em data).1.pendingRequest.method = none) := by
  have h0 : DInv { c with parsing := true } := ⟨h.1, fun hc => h.2 (hc.elim id fun h => by cases h)⟩
  have h1 := (inv_execute (cb := clientCb env em) (Iok := fun c => DInv c ∧ c.parsing = true) (Iany := fun c => DInv c ∧ c.parsing = true) (fun _ h => h)
    (fun k p s hk hs => ⟨clientCb_d he hf env k p s hk hs, fun hn => ⟨by
      rcases (clientCb_tame env hf).tame k p s hk with e | e
      · exact (congrArg HParser.errno e).trans hk
      · exact absurd e.1 hn, clientCb_d he hf env k p s hk hs⟩⟩) (p := c.p) (s := { c with parsing := true }) ⟨h0, rfl⟩ data).1
  exact ⟨h1.1.defs, fun hp => h1.1.idle (Or.inl hp)⟩

theorem DInv.receive (ht : EmTop em) (ho : EmOk none em) (hh : EmHeaders em) {c : Client} (h : DInv c) (hc : Top c) (hi : CInv none c) (hp : c.responsePending = true) (data : Bytes) : DInv (c.receive env em data) := by
  unfold Client.receive
  dsimp only
  have h1 := DInv.inject he hf env (c := c) ⟨h.defs, fun _ => h.idle (Or.inr hc.parsing)⟩ data
  have hp1 := inject_safe' hf env hc.safe data
  have hi1 := hi.inject ho hf hh env hp data
  generalize (c.inject env em data).2 = n
  generalize (c.inject env em data).1 = c1 at h1 hp1 hi1 ⊢
  generalize hc2 : (if c1.responsePending then _ else _ : Client) = c2
  have h2 : Deferrals c2.log c2.waiting ∧ (c2.responsePending = true → c2.pendingRequest.method = none) ∧ c2.parsing = false := by
    subst hc2
    split
    · rename_i hpd
      generalize hc3 : (if !c1.hasError && decide (n < data.length) then (c1.inject env em (data.drop n)).1 else c1 : Client) = c3
      have h3 : (Deferrals c3.log c3.waiting ∧ (c3.responsePending = true → c3.pendingRequest.method = none)) ∧ Safe c3.p ∧ c3.parsing = false ∧
          (c3.hasError = true → c3.responsePending = true) := by
        subst hc3
        split
        · have hs := inject_safe' hf env hp1.1 (data.drop n)
          exact ⟨DInv.inject he hf env h1 _, hs.1, hs.2.1, (hi1.1.inject ho hf hh env hpd _).2⟩
        · exact ⟨h1, hp1.1, hp1.2.1, hi1.2⟩
      obtain ⟨k1, k2, k3, k4⟩ := h3
      clear hc3
      split
      · rename_i herr
        have hn := k1.2 (k4 herr)
        have hd : DInv { (c3.add .close) with error := .responseInvalid, sock := c3.sock.close, responsePending := false } :=
          ⟨deferrals_side trivial k1.1, fun _ => hn⟩
        have hd' := he .finished _ hd
        have ht' := ht .finished { (c3.add .close) with error := .responseInvalid, sock := c3.sock.close, responsePending := false } ⟨k3, k2, by rintro ⟨⟩⟩
        exact ⟨hd'.defs, fun hp => hd'.idle (Or.inl hp), ht'.parsing⟩
      · exact ⟨k1.1, k1.2, k3⟩
    · exact ⟨h1.1, h1.2, hp1.2.1⟩
  obtain ⟨k1, k2, k3⟩ := h2
  clear hc2
  split
  · rename_i hcond
    simp only [Bool.and_eq_true, Bool.not_eq_true'] at hcond
    rw [makeRequest_accept (c := { c2 with pendingRequest := {} }) hcond.1 k3]
    refine DInv.accept he (c := { c2 with pendingRequest := {} }) k3 _ (Or.inr ?_) rfl
    unfold Client.waiting at k1
    rwa [if_neg (by intro e; rw [e] at hcond; simp at hcond)] at k1
  · rename_i hcond
    refine ⟨k1, fun _ => ?_⟩
    by_cases hp : c2.responsePending = true
    · exact k2 hp
    · cases hm : c2.pendingRequest.method with
      | none => rfl
      | some m => simp [hp, hm] at hcond

theorem DInv.readyRead (ht : EmTop em) (ho : EmOk none em) (hh : EmHeaders em) {c : Client} (h : DInv c) (hc : Top c) (hi : CInv none c) : DInv (c.readyRead env em) := by
  unfold Client.readyRead
  split
  · exact h.same (Or.inr ⟨.close, trivial, rfl⟩) rfl id
  · rename_i hp
    have hp : c.responsePending = true := by simpa using hp
    split
    · exact h
    · dsimp only
      generalize (if c.sock.readBufferSize > 0 then _ else _ : Nat) = n
      split
      · exact h
      · exact DInv.receive he hf env ht ho hh (c := { c with sock := { c.sock with rx := c.sock.rx.drop _ } }) (h.same (Or.inl rfl) rfl id) (hc.same rfl rfl id)
          (hi.change (Or.inl rfl) rfl rfl rfl (Or.inl ⟨rfl, rfl⟩) rfl rfl trivial) hp _

end

theorem DInv.step (env : ClientEnv) (fuel : Nat) {c : Client} (h : DInv c) (hc : Top c) (hi : CInv none c) (i : CInput) : DInv (c.step env fuel i) := by
  have hd := emit_d env fuel
  have hf := emit_framed env fuel
  have ht := emit_top env fuel
  have ho := emit_ok none env fuel
  have hh := emit_headers env fuel
  cases i with
  | call u => exact h.call hd env u
  | connected =>
    show DInv (if c.sock.state = .connecting then { c with sock := { c.sock with state := .connected } }.sendRequest else c)
    split
    · exact DInv.send (h.same (Or.inl rfl) rfl id)
    · exact h
  | error rc => exact h.deviceError hd hc.parsing rc
  | arrive bs =>
    show DInv (if c.sock.state = .connected ∨ c.sock.state = .closing then { c with sock := { c.sock with rx := c.sock.rx ++ bs } } else c)
    split
    · exact h.same (Or.inl rfl) rfl id
    · exact h
  | readyRead => exact h.readyRead hd hf env ht ho hh hc hi
  | disconnected => exact h.same (Or.inl rfl) rfl id
  | unsent u => exact h.same (Or.inl rfl) rfl id
  | timeout =>
    show DInv (if c.timers = 0 then c else { c with timers := c.timers - 1 }.readyRead env (Client.emit env fuel))
    split
    · exact h
    · exact DInv.readyRead hd hf env ht ho hh (c := { c with timers := c.timers - 1 }) (h.same (Or.inl rfl) rfl id) (hc.same rfl rfl id)
        (hi.change (Or.inl rfl) rfl rfl rfl (Or.inl ⟨rfl, rfl⟩) rfl rfl trivial)
  | tick ms => exact h.same (Or.inl rfl) rfl id

theorem DInv.run (env : ClientEnv) (fuel : Nat) : ∀ (is : List CInput) {c : Client}, DInv c → Top c → CInv none c → DInv (c.run env fuel is)
  | [], _, h, _, _ => h
  | i :: is, _, h, hc, hi => DInv.run env fuel is (h.step env fuel hc hi i) (hc.step env fuel i) (hi.step env fuel i (by rintro ⟨⟩))

theorem new_d (onH onC onF : List (List UserCall)) (onK : List SockReply) : DInv (Client.new onH onC onF onK) := ⟨.nil, fun _ => rfl⟩

end Pillow
namespace Pillow
open Spec

/-! ## Growth in a step -/

section
variable {em : Signal → Client → Client} (hg : EmGrows em) (hf : EmFramed em) (env : ClientEnv)
include hg

theorem messageComplete_log (c : Client) : c.log <+: (c.messageComplete em).log := by
  rw [messageComplete_eq]
  split
  · obtain ⟨p, e⟩ := clear_eq { c with contentDecoder := none }
    rw [e]
    exact List.prefix_refl _
  · refine List.IsPrefix.trans ?_ (pre (hg _ _))
    unfold Client.completing
    dsimp only
    split
    · exact List.prefix_append _ _
    · split
      · exact List.prefix_append _ _
      · exact List.prefix_refl _

theorem clientCb_log (k : Cb) (p : HParser) (c : Client) : c.log <+: (clientCb env em k p c).2.log := by
  cases k with
  | messageBegin => exact List.prefix_refl _
  | field bs => exact List.prefix_refl _
  | value bs => exact List.prefix_refl _
  | headersComplete =>
    show c.log <+: (Client.headersComplete env em { c with p := p, parsing := true, d := c.d.push }).log
    unfold Client.headersComplete
    split
    · exact List.prefix_refl _
    · dsimp only
      refine List.IsPrefix.trans (pre (hg .headers { c with p := p, parsing := true, d := c.d.push })) ?_
      generalize em .headers { c with p := p, parsing := true, d := c.d.push } = c1
      split
      · exact messageComplete_log hg { c1 with p := c1.p.pause }
      · split <;> exact List.prefix_refl _
  | body bs =>
    show c.log <+: (Client.messageContent env em bs { c with p := p, parsing := true }).log
    rw [messageContent_eq]
    obtain ⟨ct, dec, e⟩ := storing_facts env bs { c with p := p, parsing := true }
    rw [e]
    refine List.IsPrefix.trans ?_ (pre (hg _ _))
    exact List.prefix_refl _
  | messageComplete => exact messageComplete_log hg { c with p := p, parsing := true }

include hf

theorem inject_log (c : Client) (data : Bytes) : c.log <+: (c.inject env em data).1.log := by
  have h := (inv_execute (cb := clientCb env em) (Iok := fun x => c.log <+: x.log) (Iany := fun x => c.log <+: x.log) (fun _ h => h)
    (fun k p s hk hs => ⟨hs.trans (clientCb_log hg env k p s), fun hn => ⟨by
      rcases (clientCb_tame env hf).tame k p s hk with e | e
      · exact (congrArg HParser.errno e).trans hk
      · exact absurd e.1 hn, hs.trans (clientCb_log hg env k p s)⟩⟩) (p := c.p) (s := { c with parsing := true }) (List.prefix_refl _) data).1
  exact h

theorem receive_log (c : Client) (data : Bytes) : c.log <+: (c.receive env em data).log := by
  unfold Client.receive
  dsimp only
  refine List.IsPrefix.trans (inject_log hg hf env c data) ?_
  generalize (c.inject env em data).2 = n
  generalize (c.inject env em data).1 = c1
  generalize hc2 : (if c1.responsePending then _ else _ : Client) = c2
  have h2 : c1.log <+: c2.log := by
    subst hc2
    split
    · have h3 : c1.log <+: (if !c1.hasError && decide (n < data.length) then (c1.inject env em (data.drop n)).1 else c1 : Client).log := by
        split
        · exact inject_log hg hf env c1 _
        · exact List.prefix_refl _
      generalize (if !c1.hasError && decide (n < data.length) then (c1.inject env em (data.drop n)).1 else c1 : Client) = c3 at h3 ⊢
      split
      · refine h3.trans (List.IsPrefix.trans ?_ (pre (hg _ _)))
        exact List.prefix_append _ _
      · exact h3
    · exact List.prefix_refl _
  refine h2.trans ?_
  split
  · exact makeRequest_log hg { c2 with pendingRequest := {} } _
  · exact List.prefix_refl _

theorem readyRead_log (c : Client) : c.log <+: (c.readyRead env em).log := by
  unfold Client.readyRead
  split
  · exact List.prefix_append _ _
  · split
    · exact List.prefix_refl _
    · dsimp only
      generalize (if c.sock.readBufferSize > 0 then _ else _ : Nat) = n
      split
      · exact List.prefix_refl _
      · exact receive_log hg hf env { c with sock := { c.sock with rx := c.sock.rx.drop n } } _

end

theorem step_log (env : ClientEnv) (fuel : Nat) (c : Client) (i : CInput) : c.log <+: (c.step env fuel i).log := by
  have hg := emit_log env fuel
  have hf := emit_framed env fuel
  cases i with
  | call u => exact call_log hg env c u
  | connected =>
    show c.log <+: (if c.sock.state = .connecting then { c with sock := { c.sock with state := .connected } }.sendRequest else c).log
    split
    · exact sendRequest_log { c with sock := { c.sock with state := .connected } }
    · exact List.prefix_refl _
  | error rc => exact deviceError_log hg c rc
  | arrive bs =>
    show c.log <+: (if c.sock.state = .connected ∨ c.sock.state = .closing then { c with sock := { c.sock with rx := c.sock.rx ++ bs } } else c).log
    split <;> exact List.prefix_refl _
  | readyRead => exact readyRead_log hg hf env c
  | disconnected => exact List.prefix_refl _
  | unsent u => exact List.prefix_refl _
  | timeout =>
    show c.log <+: (if c.timers = 0 then c else { c with timers := c.timers - 1 }.readyRead env (Client.emit env fuel)).log
    split
    · exact List.prefix_refl _
    · exact readyRead_log hg hf env { c with timers := c.timers - 1 }
  | tick ms => exact List.prefix_refl _

theorem run_log (env : ClientEnv) (fuel : Nat) : ∀ (is : List CInput) (c : Client), c.log <+: (c.run env fuel is).log
  | [], _ => List.prefix_refl _
  | i :: is, c => (step_log env fuel c i).trans (run_log env fuel is _)

end Pillow
