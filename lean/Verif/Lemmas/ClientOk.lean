import Verif.Lemmas.ClientInv
/-!
# The log of the client: requests, what is written, what is reported
-/
namespace Pillow
open Spec

/-- What is assumed of the application, see `C37_partial`: it does not abort while handling `headersCompleted()` (`some true`), or makes no HEAD requests (`some false`), or nothing. -/
def Gentle (mode : Option Bool) (c : Client) : Prop :=
  match mode with
  | none => True
  | some true => AbortFree c.onHeaders
  | some false => (∀ l ∈ c.onHeaders, HeadFree l) ∧ (∀ l ∈ c.onContent, HeadFree l) ∧ (∀ l ∈ c.onFinished, HeadFree l) ∧ ¬ IsHead c.request ∧ ¬ IsHead c.pendingRequest

/-- Events that are neither requests, nor writes, nor ends. -/
def CEv.Plain : CEv → Prop
  | .accepted _ | .write _ _ | .finished .. => False
  | _ => True

structure CInv (b : Option Bool) (c : Client) : Prop where
  paired : b ≠ none → Paired c.log c.responsePending
  reasons : b ≠ none → Reasons c.log
  noError : c.responsePending = true → c.error = .noError
  sends : ∃ x, Sends c.log x ∧ (c.responsePending = true → ∃ w, x = some (c.request, w) ∧ (c.sock.state = .connecting → w = false))
  net : c.sock.state = .connecting ∨ c.sock.state = .connected → c.sock.peer = (c.request.url.host, c.request.url.portOr80)
  host : c.hostHeaderValue = [] ∨ c.hostHeaderValue = hostValue c.request.url
  writer : c.writer = { hasDevice := true }
  gentle : Gentle b c

/-! ## The logs -/

theorem paired_plain {l : List CEv} {w : Bool} (e : CEv) (he : e.Plain) (h : Paired l w) : Paired (l ++ [e]) w := by
  refine .other e ?_ ?_ h
  · rintro r rfl; exact he
  · rintro _ _ _ _ rfl; exact he

theorem sends_plain {l : List CEv} {x} (e : CEv) (he : (∀ r, e ≠ .accepted r) ∧ ∀ p d, e ≠ .write p d) (h : Sends l x) : Sends (l ++ [e]) x :=
  .other e he.1 he.2 h

theorem plain_sends {e : CEv} (he : e.Plain) : (∀ r, e ≠ .accepted r) ∧ ∀ p d, e ≠ .write p d := by
  constructor
  · rintro r rfl; exact he
  · rintro _ _ rfl; exact he

theorem reasons_snoc {l : List CEv} (e : CEv) (h : Reasons l)
    (he : ∀ x st hs ct, e = .finished x st hs ct → x ≠ .noError → if x = .aborted then ∃ k, l = k ++ [.abort] else ∃ k, l = k ++ [.close]) :
    Reasons (l ++ [e]) := by
  intro l₁ x st hs ct l₂ heq hx
  rcases List.eq_nil_or_concat l₂ with rfl | ⟨l₃, y, rfl⟩
  · obtain ⟨h1, h2⟩ := List.append_inj' heq rfl
    injection h2 with h2 _
    subst h1
    exact he x st hs ct h2 hx
  · have heq' : l ++ [e] = (l₁ ++ .finished x st hs ct :: l₃) ++ [y] := by
      rw [heq]; simp
    exact h l₁ x st hs ct l₃ (List.append_inj' heq' rfl).1 hx

theorem reasons_plain {l : List CEv} (e : CEv) (he : ∀ x st hs ct, e ≠ .finished x st hs ct) (h : Reasons l) : Reasons (l ++ [e]) :=
  reasons_snoc e h fun x st hs ct hh => absurd hh (he x st hs ct)

/-! ## Changes that keep the invariant -/

/-- Only the log, the socket, and what does not matter change. -/
theorem CInv.change {b : Option Bool} {c c' : Client} (h : CInv b c) (hl : c'.log = c.log ∨ ∃ e : CEv, e.Plain ∧ c'.log = c.log ++ [e])
    (hp : c'.responsePending = c.responsePending) (he : c'.error = c.error) (hr : c'.request = c.request)
    (hs : (c'.sock.state = c.sock.state ∧ c'.sock.peer = c.sock.peer) ∨ (c'.sock.state ≠ .connecting ∧ c'.sock.state ≠ .connected))
    (hh : c'.hostHeaderValue = c.hostHeaderValue) (hw : c'.writer = c.writer) (hg : Gentle b c') : CInv b c' := by
  obtain ⟨x, hx, hx'⟩ := h.sends
  have hnet : c'.sock.state = .connecting ∨ c'.sock.state = .connected → c'.sock.peer = (c'.request.url.host, c'.request.url.portOr80) := by
    intro hc
    rcases hs with ⟨h1, h2⟩ | ⟨h1, h2⟩
    · rw [h2, hr]; exact h.net (h1 ▸ hc)
    · rcases hc with hc | hc
      · exact absurd hc h1
      · exact absurd hc h2
  have hsd : c'.responsePending = true → ∃ w, x = some (c'.request, w) ∧ (c'.sock.state = .connecting → w = false) := by
    intro hc
    obtain ⟨w, h1, h2⟩ := hx' (hp ▸ hc)
    refine ⟨w, by rw [hr]; exact h1, fun hk => ?_⟩
    rcases hs with ⟨h3, _⟩ | ⟨h3, _⟩
    · exact h2 (h3 ▸ hk)
    · exact absurd hk h3
  have hpair : b ≠ none → Paired c'.log c'.responsePending := by
    intro hb
    rw [hp]
    rcases hl with e | ⟨e, hpl, e'⟩
    · rw [e]; exact h.paired hb
    · rw [e']; exact paired_plain e hpl (h.paired hb)
  have hreas : b ≠ none → Reasons c'.log := by
    intro hb
    rcases hl with e | ⟨e, hpl, e'⟩
    · rw [e]; exact h.reasons hb
    · rw [e']; exact reasons_plain e (by rintro _ _ _ _ rfl; exact hpl) (h.reasons hb)
  have hsend : Sends c'.log x := by
    rcases hl with e | ⟨e, hpl, e'⟩
    · rw [e]; exact hx
    · rw [e']; exact sends_plain e (plain_sends hpl) hx
  exact ⟨hpair, hreas, fun hc => he.trans (h.noError (hp ▸ hc)), ⟨x, hsend, hsd⟩, hnet, by rw [hh, hr]; exact h.host, hw.trans h.writer, hg⟩

/-- The request has ended. -/
theorem CInv.finish {b : Option Bool} {c c' : Client} (h : CInv b c) (hpd : b ≠ none → c.responsePending = true) (hf : c'.responsePending = false)
    (hl : ∃ st hs ct, c'.log = c.log ++ [.finished c'.error st hs ct])
    (hre : b ≠ none → c'.error ≠ .noError → if c'.error = .aborted then ∃ k, c.log = k ++ [.abort] else ∃ k, c.log = k ++ [.close])
    (hr : c'.request = c.request) (hs : c'.sock = c.sock)
    (hh : c'.hostHeaderValue = c.hostHeaderValue) (hw : c'.writer = c.writer) (hg : Gentle b c') : CInv b c' := by
  obtain ⟨x, hx, hx'⟩ := h.sends
  obtain ⟨st, hs', ct, hl⟩ := hl
  refine ⟨?_, ?_, fun hc => (by rw [hf] at hc; cases hc), ⟨x, ?_, fun hc => (by rw [hf] at hc; cases hc)⟩, ?_, ?_, hw.trans h.writer, hg⟩
  · intro hb; rw [hl, hf]; exact .finished _ _ _ _ (hpd hb ▸ h.paired hb)
  · intro hb
    rw [hl]
    refine reasons_snoc _ (h.reasons hb) ?_
    rintro x st hs ct hh hx
    injection hh with h1
    subst h1
    exact hre hb hx
  · rw [hl]; exact sends_plain _ ⟨by rintro r ⟨⟩, by rintro _ _ ⟨⟩⟩ hx
  · rw [hs, hr]; exact h.net
  · rw [hh, hr]; exact h.host

/-! ## Sending -/

theorem portOr80_eq (u : Url) : u.portOr80 = portOf u := by
  unfold Url.portOr80 portOf
  cases u.port <;> rfl

theorem hostValue_spec (u : Url) : HostValue u (hostValue u) := by
  unfold hostValue HostValue
  rw [← portOr80_eq]
  by_cases h : u.portOr80 = 80
  · rw [if_neg (by simp [h])]; exact Or.inl ⟨h, rfl⟩
  · right
    refine ⟨h, digits 10 u.portOr80, readNat_digits 10 (by omega) (by omega) _, canonical_digits 10 (by omega) (by omega) _, ?_⟩
    rw [if_pos h, appendNumber_eq _ _ _ _ (by omega)]
    simp [renderInt]

theorem hostValue_congr {u v : Url} (h : u.host = v.host) (h' : u.port = v.port) : hostValue u = hostValue v := by
  unfold hostValue Url.portOr80
  rw [h, h']

theorem outRequest_wire (r : ClientRequest) (data : Bytes) (h : Frame (outRequest r (hostValue r.url)) data) : Wire r data := by
  refine ⟨hostValue r.url, hostValue_spec _, ?_⟩
  have e : outRequest r (hostValue r.url) = { method := r.method.getD [], path := r.url.path ++ (if r.url.query = [] then [] else b!"?" ++ r.url.query), headers := ⟨b!"Host", hostValue r.url⟩ :: r.headers, data := r.data } := by
    unfold outRequest
    congr 1
    by_cases h : r.url.query = []
    · simp [h]
    · rw [if_neg (by simpa using h), if_neg h]; simp
  rwa [e] at h

/-- A request that has not been written is written. -/
theorem CInv.send {b : Option Bool} {c : Client} (h : CInv b c) (hc : c.sock.state = .connected) (hx : c.responsePending = true → Sends c.log (some (c.request, false))) : CInv b c.sendRequest := by
  unfold Client.sendRequest
  split
  · exact h
  · rename_i hp
    have hp : c.responsePending = true := by simpa using hp
    dsimp only
    generalize hcc : (if c.hostHeaderValue.isEmpty then { c with hostHeaderValue := hostValue c.request.url } else c) = c1
    have hf : c1.hostHeaderValue = hostValue c.request.url ∧ c1 = { c with hostHeaderValue := hostValue c.request.url } := by
      subst hcc
      split
      · exact ⟨rfl, rfl⟩
      · rename_i hn
        rcases h.host with e | e
        · rw [e] at hn; exact absurd rfl hn
        · exact ⟨e, by rw [← e]⟩
    obtain ⟨hf1, hf2⟩ := hf
    obtain ⟨out, hw1, hw2⟩ := Props.write_frame c1.writer (outRequest c1.request c1.hostHeaderValue) (by rw [hf2]; show c.writer.builder = []; rw [h.writer]) (by rw [hf2]; show c.writer.hasDevice = true; rw [h.writer])
    rw [hw1]
    have hreq : c1.request = c.request := by rw [hf2]
    rw [hf1, hreq] at hw2
    have hpeer : c1.sock.peer = (c.request.url.host, c.request.url.portOr80) := by rw [hf2]; exact h.net (Or.inr hc)
    have hwire : Sends (c.log ++ [.write (c.request.url.host, c.request.url.portOr80) out.flatten]) (some (c.request, true)) :=
      portOr80_eq _ ▸ .write _ _ (hx hp) (outRequest_wire _ _ hw2)
    subst hf2
    refine ⟨?_, ?_, h.noError, ⟨_, ?_, fun _ => ⟨true, rfl, fun hk => ?_⟩⟩, h.net, Or.inr rfl, h.writer, h.gentle⟩
    · exact fun hb => .other _ (by rintro r ⟨⟩) (by rintro _ _ _ _ ⟨⟩) (h.paired hb)
    · exact fun hb => reasons_plain _ (by rintro _ _ _ _ ⟨⟩) (h.reasons hb)
    · show Sends (c.log ++ [.write c.sock.peer out.flatten]) _
      have : c.sock.peer = _ := hpeer
      rw [this]
      exact hwire
    · have hk : c.sock.state = .connecting := hk
      rw [hc] at hk; cases hk

/-! ## Emission -/

/-- A signal that may be emitted. -/
def EmOk (b : Option Bool) (em : Signal → Client → Client) : Prop := ∀ s c, CInv b (c.add (c.shows s)) → CInv b (em s c)

theorem Sock.disconnect_state (k : Sock) : k.disconnectFromHost.state ≠ .connecting ∧ k.disconnectFromHost.state ≠ .connected := by
  unfold Sock.disconnectFromHost
  dsimp only
  split <;> simp

theorem Sock.close_state (k : Sock) : k.close.state ≠ .connecting ∧ k.close.state ≠ .connected := k.disconnect_state

theorem CInv.abort {b : Option Bool} {em : Signal → Client → Client} (he : EmOk b em) {c : Client} (h : CInv b c) : CInv b (c.abort em) := by
  unfold Client.abort
  dsimp only
  have h1 : CInv b { (c.add .abort) with sock := c.sock.abort } :=
    h.change (Or.inr ⟨.abort, trivial, rfl⟩) rfl rfl rfl (Or.inr ⟨by simp [Sock.abort], by simp [Sock.abort]⟩) rfl rfl h.gentle
  split
  · rename_i hp
    refine he _ _ ?_
    refine h1.finish (fun _ => hp) rfl ⟨_, _, _, rfl⟩ (fun _ _ => ?_) rfl rfl rfl rfl h.gentle
    exact (if_pos (c := CError.aborted = CError.aborted) rfl).mpr ⟨c.log, rfl⟩
  · exact h1

theorem CInv.deviceError {b : Option Bool} {em : Signal → Client → Client} (he : EmOk b em) {c : Client} (h : CInv b c) (rc : Bool) : CInv b (c.deviceError em rc) := by
  unfold Client.deviceError
  split
  · exact h
  · rename_i hp
    have hp : c.responsePending = true := by simpa using hp
    dsimp only
    have h1 : CInv b { (c.add .close) with sock := c.sock.close } :=
      h.change (Or.inr ⟨.close, trivial, rfl⟩) rfl rfl rfl (Or.inr c.sock.close_state) rfl rfl h.gentle
    refine he _ _ ?_
    refine h1.finish (fun _ => hp) rfl ⟨_, _, _, rfl⟩ (fun _ _ => ?_) rfl rfl rfl rfl h.gentle
    exact (if_neg (c := (if rc then CError.remoteHostClosed else .network) = CError.aborted) (by cases rc <;> simp)).mpr ⟨c.log, rfl⟩

theorem clear_eq (c : Client) : ∃ p, c.clear = { c with p := p, d := { c.d with headers := [], content := [] } } := by
  unfold Client.clear
  dsimp only
  split
  · exact ⟨_, rfl⟩
  · exact ⟨_, rfl⟩

theorem CInv.connectReply {b : Option Bool} {em : Signal → Client → Client} (he : EmOk b em) {c : Client} (h : CInv b c) : CInv b (c.connectReply em) := by
  unfold Client.connectReply
  dsimp only
  have h1 : CInv b { c with onConnect := c.onConnect.tail } := h.change (Or.inl rfl) rfl rfl rfl (Or.inl ⟨rfl, rfl⟩) rfl rfl h.gentle
  split
  · rename_i hc
    split
    · exact h1
    · obtain ⟨x, hx, hx'⟩ := h1.sends
      refine CInv.send (c := { { c with onConnect := c.onConnect.tail } with sock := { c.sock with state := .connected } }) ?_ rfl ?_
      · exact ⟨h1.paired, h1.reasons, h1.noError, ⟨x, hx, fun hp => by
          obtain ⟨w, h2, _⟩ := hx' hp
          exact ⟨w, h2, fun hk => by cases hk⟩⟩, fun _ => h1.net (Or.inl hc), h1.host, h1.writer, h1.gentle⟩
      · intro hp
        obtain ⟨w, h2, h3⟩ := hx' hp
        have := h3 hc
        subst this
        rw [h2] at hx
        exact hx
    · exact h1.deviceError he _
  · exact h1

theorem CInv.accept {b : Option Bool} {em : Signal → Client → Client} (he : EmOk b em) {c : Client} (h : CInv b c) (hp : c.responsePending = false) (r : ClientRequest)
    (hr : b = some false → ¬ IsHead r) : CInv b (c.accept em r) := by
  obtain ⟨x, hx, -⟩ := h.sends
  unfold Client.accept
  dsimp only
  generalize hc1 : Client.clear { (c.add (.accepted r)) with request := r, responsePending := true, error := .noError } = c1
  obtain ⟨p, e1⟩ := clear_eq { (c.add (.accepted r)) with request := r, responsePending := true, error := .noError }
  rw [hc1] at e1
  have hlog : c1.log = c.log ++ [.accepted r] := by rw [e1]; rfl
  have hreq : c1.request = r := by rw [e1]
  have hpd : c1.responsePending = true := by rw [e1]
  have herr : c1.error = .noError := by rw [e1]
  have hsock : c1.sock = c.sock := by rw [e1]; rfl
  have hhost : c1.hostHeaderValue = c.hostHeaderValue := by rw [e1]; rfl
  have hwr : c1.writer = c.writer := by rw [e1]; rfl
  have hpr : c1.pendingRequest = c.pendingRequest := by rw [e1]; rfl
  have hs1 : c1.onHeaders = c.onHeaders := by rw [e1]; rfl
  have hs2 : c1.onContent = c.onContent := by rw [e1]; rfl
  have hs3 : c1.onFinished = c.onFinished := by rw [e1]; rfl
  have hg : Gentle b c1 := by
    have hg := h.gentle
    unfold Gentle at hg ⊢
    rw [hs1, hs2, hs3, hreq, hpr]
    match b with
    | none => trivial
    | some true => exact hg
    | some false => exact ⟨hg.1, hg.2.1, hg.2.2.1, hr rfl, hg.2.2.2.2⟩
  have hpair : b ≠ none → Paired c1.log true := by intro hb; rw [hlog]; exact .accepted r (hp ▸ h.paired hb)
  have hreas : b ≠ none → Reasons c1.log := by intro hb; rw [hlog]; exact reasons_plain _ (by rintro _ _ _ _ ⟨⟩) (h.reasons hb)
  have hsend : Sends c1.log (some (c1.request, false)) := by rw [hlog, hreq]; exact .accepted r hx
  clear e1 hc1
  split
  · rename_i hcond
    simp only [Bool.and_eq_true, beq_iff_eq, Bool.not_eq_true'] at hcond
    obtain ⟨⟨hk, hsame1, hsame2⟩, -⟩ := hcond
    refine CInv.send ?_ hk fun _ => hsend
    refine ⟨fun hb => hpd ▸ hpair hb, hreas, fun _ => herr, ⟨_, hsend, fun _ => ⟨false, rfl, fun _ => rfl⟩⟩, fun _ => ?_, ?_, hwr.trans h.writer, hg⟩
    · rw [hsock, h.net (Or.inr (hsock ▸ hk))]
      unfold Url.portOr80
      rw [hsame1, hsame2]
    · rw [hhost, hostValue_congr hsame1 hsame2]; exact h.host
  · apply CInv.connectReply he
    generalize hc2 : (if c1.sock.state != .unconnected then _ else _ : Client) = c2
    have key : (∃ l, c2.log = c1.log ++ l ∧ (l = [] ∨ l = [.disconnectFromHost])) ∧ c2.responsePending = true ∧ c2.request = c1.request ∧ c2.error = .noError ∧
        (c2.sock.state ≠ .connecting ∧ c2.sock.state ≠ .connected) ∧ c2.hostHeaderValue = [] ∧ c2.writer = c.writer ∧ Gentle b c2 := by
      subst hc2
      split
      · exact ⟨⟨_, rfl, Or.inr rfl⟩, hpd, rfl, herr, c1.sock.disconnect_state, rfl, hwr, hg⟩
      · rename_i hu
        have hu : c1.sock.state = .unconnected := by simpa using hu
        exact ⟨⟨_, (List.append_nil _).symm, Or.inl rfl⟩, hpd, rfl, herr, by rw [hu]; simp, rfl, hwr, hg⟩
    obtain ⟨⟨l, k1, k2⟩, k3, k4, k5, k6, k7, k8, k9⟩ := key
    clear hc2
    have hb : CInv b c2 := by
      refine ⟨?_, ?_, fun _ => k5, ⟨some (c1.request, false), ?_, fun _ => ⟨false, by rw [k4], fun _ => rfl⟩⟩, fun hk => ?_, Or.inl k7, k8.trans h.writer, k9⟩
      · intro hb
        rw [k1, k3]
        rcases k2 with e | e
        · rw [e]; simpa using hpair hb
        · rw [e]; exact paired_plain _ trivial (hpair hb)
      · intro hb
        rw [k1]
        rcases k2 with e | e
        · rw [e]; simpa using hreas hb
        · rw [e]; exact reasons_plain _ (by rintro _ _ _ _ ⟨⟩) (hreas hb)
      · rw [k1]
        rcases k2 with e | e
        · rw [e]; simpa using hsend
        · rw [e]; exact sends_plain _ (plain_sends trivial) hsend
      · rcases hk with hk | hk
        · exact absurd hk k6.1
        · exact absurd hk k6.2
    obtain ⟨y, hy, hy'⟩ := hb.sends
    have hy : y = some (c2.request, false) ∨ True := Or.inr trivial
    unfold Sock.connectToHost
    split
    · refine ⟨fun hn => paired_plain _ trivial (hb.paired hn), fun hn => reasons_plain _ (by rintro _ _ _ _ ⟨⟩) (hb.reasons hn), hb.noError, ⟨some (c1.request, false), ?_, fun _ => ⟨false, ?_, fun _ => rfl⟩⟩, fun _ => ?_, hb.host, hb.writer, hb.gentle⟩
      · refine sends_plain _ (plain_sends trivial) ?_
        show Sends c2.log _
        rw [k1]
        rcases k2 with e | e
        · rw [e]; simpa using hsend
        · rw [e]; exact sends_plain _ (plain_sends trivial) hsend
      · show some (c1.request, false) = some (c2.request, false)
        rw [k4]
      · rfl
    · exact hb.change (Or.inr ⟨.connectToHost _ _, trivial, rfl⟩) rfl rfl rfl (Or.inl ⟨rfl, rfl⟩) rfl rfl hb.gentle

theorem CInv.makeRequest {b : Option Bool} {em : Signal → Client → Client} (he : EmOk b em) {c : Client} (h : CInv b c) (r : ClientRequest)
    (hr : b = some false → ¬ IsHead r) : CInv b (c.makeRequest em r) := by
  unfold Client.makeRequest
  split
  · exact h.change (Or.inr ⟨.refused r, trivial, rfl⟩) rfl rfl rfl (Or.inl ⟨rfl, rfl⟩) rfl rfl h.gentle
  · rename_i hp
    have hp : c.responsePending = false := by simpa using hp
    split
    · refine h.change (Or.inr ⟨.deferred r, trivial, rfl⟩) rfl rfl rfl (Or.inl ⟨rfl, rfl⟩) rfl rfl ?_
      have hg := h.gentle
      unfold Gentle at hg ⊢
      match b with
      | none => trivial
      | some true => exact hg
      | some false => exact ⟨hg.1, hg.2.1, hg.2.2.1, hg.2.2.2.1, hr rfl⟩
    · exact h.accept he hp r hr

theorem CInv.call {b : Option Bool} {em : Signal → Client → Client} (he : EmOk b em) (env : ClientEnv) {c : Client} (h : CInv b c) (u : UserCall)
    (hu : b = some false → HeadFree [u]) : CInv b (c.call env em u) := by
  cases u with
  | request r => exact h.makeRequest he r fun hb => hu hb r (by simp)
  | abort => exact h.abort he
  | consumeContent =>
    show CInv b c.consumeContent
    unfold Client.consumeContent
    dsimp only
    split <;> exact h.change (Or.inr ⟨.consumed _, trivial, rfl⟩) rfl rfl rfl (Or.inl ⟨rfl, rfl⟩) rfl rfl h.gentle
  | followRedirection =>
    show CInv b (c.followRedirection env em)
    unfold Client.followRedirection
    dsimp only
    have h : CInv b (c.add .followRedirection) := h.change (Or.inr ⟨.followRedirection, trivial, rfl⟩) rfl rfl rfl (Or.inl ⟨rfl, rfl⟩) rfl rfl h.gentle
    split
    · exact h
    · refine h.makeRequest he _ fun hb => ?_
      have hg := h.gentle
      subst hb
      exact hg.2.2.2.1
  | setKeepAliveTimeout ms => exact h.change (Or.inl rfl) rfl rfl rfl (Or.inl ⟨rfl, rfl⟩) rfl rfl h.gentle
  | setReadBufferSize n => exact h.change (Or.inl rfl) rfl rfl rfl (Or.inl ⟨rfl, rfl⟩) rfl rfl h.gentle

theorem CInv.calls {b : Option Bool} {em : Signal → Client → Client} (he : EmOk b em) (env : ClientEnv) : ∀ (l : List UserCall) {c : Client}, CInv b c →
    (b = some false → HeadFree l) → CInv b (l.foldl (Client.call env em) c)
  | [], _, h, _ => h
  | u :: l, _, h, hl => CInv.calls he env l (h.call he env u fun hb r hr => hl hb r (by simp at hr; simp [hr])) fun hb r hr => hl hb r (by simp [hr])

theorem headFree_headD {l : List (List UserCall)} (h : ∀ x ∈ l, HeadFree x) : HeadFree (l.headD []) := by
  cases l with
  | nil => intro r hr; cases hr
  | cons a l => exact h a (by simp)

theorem Gentle.react {b : Option Bool} {c : Client} (h : Gentle b c) (s : Signal) : Gentle b (c.react s).2 ∧ (b = some false → HeadFree (c.react s).1) := by
  unfold Gentle at h ⊢
  match b with
  | none => exact ⟨trivial, fun hb => by cases hb⟩
  | some true =>
    refine ⟨?_, fun hb => by cases hb⟩
    cases s
    · exact fun calls hc => h calls (List.mem_of_mem_tail hc)
    · exact h
    · exact h
  | some false =>
    obtain ⟨h1, h2, h3, h4, h5⟩ := h
    cases s
    · exact ⟨⟨fun l hl => h1 l (List.mem_of_mem_tail hl), h2, h3, h4, h5⟩, fun _ => headFree_headD h1⟩
    · exact ⟨⟨h1, fun l hl => h2 l (List.mem_of_mem_tail hl), h3, h4, h5⟩, fun _ => headFree_headD h2⟩
    · exact ⟨⟨h1, h2, fun l hl => h3 l (List.mem_of_mem_tail hl), h4, h5⟩, fun _ => headFree_headD h3⟩

theorem emit_ok (b : Option Bool) (env : ClientEnv) : ∀ n, EmOk b (Client.emit env n)
  | 0, _, _, h => h
  | n + 1, s, c, h => by
    show CInv b ((((c.add (c.shows s)).react s).1).foldl (Client.call env (Client.emit env n)) ((c.add (c.shows s)).react s).2)
    obtain ⟨h1, h2⟩ := h.gentle.react s
    refine CInv.calls (emit_ok b env n) env _ ?_ h2
    cases s <;> exact h.change (Or.inl rfl) rfl rfl rfl (Or.inl ⟨rfl, rfl⟩) rfl rfl h1

/-! ## The signal `headersCompleted()` -/

theorem call_pending {env : ClientEnv} {em : Signal → Client → Client} {c : Client} (u : UserCall) (h : c.parsing = true) (hu : u ≠ .abort) :
    (c.call env em u).responsePending = c.responsePending ∧ (c.call env em u).parsing = true := by
  have key : ∀ (c : Client) r, c.parsing = true → (c.makeRequest em r).responsePending = c.responsePending ∧ (c.makeRequest em r).parsing = true := by
    intro c r h
    unfold Client.makeRequest
    split
    · exact ⟨rfl, h⟩
    · exact ⟨rfl, h⟩
  cases u with
  | request r => exact key c r h
  | abort => exact absurd rfl hu
  | consumeContent =>
    show c.consumeContent.responsePending = _ ∧ c.consumeContent.parsing = true
    unfold Client.consumeContent
    dsimp only
    split <;> exact ⟨rfl, h⟩
  | followRedirection =>
    show (c.followRedirection env em).responsePending = _ ∧ (c.followRedirection env em).parsing = true
    unfold Client.followRedirection
    dsimp only
    split
    · exact ⟨rfl, h⟩
    · exact key (c.add .followRedirection) _ h
  | setKeepAliveTimeout ms => exact ⟨rfl, h⟩
  | setReadBufferSize n => exact ⟨rfl, h⟩

theorem calls_pending {env : ClientEnv} {em : Signal → Client → Client} : ∀ (l : List UserCall) {c : Client}, c.parsing = true → .abort ∉ l →
    (l.foldl (Client.call env em) c).responsePending = c.responsePending
  | [], _, _, _ => rfl
  | u :: l, c, h, hl => by
    have h1 := call_pending (env := env) (em := em) u h (fun e => hl (by simp [e]))
    exact (calls_pending l h1.2 (fun e => hl (by simp [e]))).trans h1.1

/-- Handling `headersCompleted()` does not end the request. -/
def EmHeaders (em : Signal → Client → Client) : Prop := ∀ c, c.parsing = true → AbortFree c.onHeaders → (em .headers c).responsePending = c.responsePending

theorem emit_headers (env : ClientEnv) (n : Nat) : EmHeaders (Client.emit env n) := by
  intro c h ha
  cases n with
  | zero => rfl
  | succ n =>
    refine calls_pending (env := env) (em := Client.emit env n) (c.onHeaders.headD []) (c := ((c.add (c.shows .headers)).react .headers).2) h ?_
    cases ho : c.onHeaders with
    | nil => simp
    | cons a l => exact ha a (by rw [ho]; simp)

end Pillow
