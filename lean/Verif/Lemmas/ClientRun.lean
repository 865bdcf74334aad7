import Verif.Lemmas.ClientOk
/-!
# Runs of the client
-/
namespace Pillow
open Spec

theorem isHead_iff (r : ClientRequest) : asciiEqualsCILower (r.method.getD []) b!"head" = true ↔ IsHead r := asciiEqualsCILower_iff _ _ (by decide)

/-! ## The callbacks keep the invariant -/

theorem CInv.completing {b : Option Bool} {c : Client} (h : CInv b c) (hp : b ≠ none → c.responsePending = true) : CInv b (c.completing.add (c.completing.shows .finished)) := by
  obtain ⟨k1, k2, k3, k4, k5, k6, k7, k8, k9, k10, k11, k12, k13⟩ := completing_facts c
  have hm : CInv b { c.completing with responsePending := c.responsePending } := by
    have hg := h.gentle
    unfold Client.completing
    dsimp only
    split
    · exact h.change (Or.inr ⟨.close, trivial, rfl⟩) rfl rfl rfl (Or.inr c.sock.close_state) rfl rfl hg
    · split
      · exact h.change (Or.inr ⟨.close, trivial, rfl⟩) rfl rfl rfl (Or.inr c.sock.close_state) rfl rfl hg
      · exact h.change (Or.inl rfl) rfl rfl rfl (Or.inl ⟨rfl, rfl⟩) rfl rfl hg
  refine hm.finish hp k3 ⟨_, _, _, rfl⟩ (fun hb hn => ?_) rfl rfl rfl rfl hm.gentle
  exact absurd (k6.trans (h.noError (hp hb))) hn

/-- What holds when a callback is called, … -/
def CallsOk (b : Option Bool) (c : Client) : Prop := CInv b c ∧ c.parsing = true ∧ c.responsePending = true
/-- … and what holds when the parser has been paused. -/
def CallsAny (b : Option Bool) (c : Client) : Prop := CInv b c ∧ c.parsing = true

theorem CInv.messageComplete {b : Option Bool} {em : Signal → Client → Client} (he : EmOk b em) {c : Client} (h : CInv b c) (hp : b ≠ none → c.responsePending = true) :
    CInv b (c.messageComplete em) := by
  rw [messageComplete_eq]
  split
  · obtain ⟨p, e⟩ := clear_eq { c with contentDecoder := none }
    rw [e]
    exact h.change (Or.inl rfl) rfl rfl rfl (Or.inl ⟨rfl, rfl⟩) rfl rfl h.gentle
  · exact he _ _ (h.completing hp)

theorem CInv.headersComplete {b : Option Bool} {em : Signal → Client → Client} (he : EmOk b em) (hf : EmFramed em) (hh : EmHeaders em) (env : ClientEnv) {c : Client}
    (h : CInv b c) (hpa : c.parsing = true) (hp : c.responsePending = true) (hk : c.p.errno = .ok) :
    CInv b (c.headersComplete env em) ∧ ((c.headersComplete env em).p.errno ≠ .paused → (c.headersComplete env em).p.errno = .ok ∧ (c.headersComplete env em).responsePending = true) := by
  unfold Client.headersComplete
  split
  · exact ⟨h, fun _ => ⟨hk, hp⟩⟩
  · rename_i hs
    dsimp only
    have h1 : CInv b (em .headers c) := he _ _ (h.change (Or.inr ⟨.headersCompleted _ _, trivial, rfl⟩) rfl rfl rfl (Or.inl ⟨rfl, rfl⟩) rfl rfl h.gentle)
    have hfr := hf .headers c hpa
    have hpe : b = some true → (em .headers c).responsePending = true := by
      rintro rfl
      exact (hh c hpa h.gentle).trans hp
    generalize em .headers c = c1 at h1 hfr hpe ⊢
    have hq : c1.p.errno ≠ .paused → c1.p.errno = .ok ∧ c1.responsePending = true := by
      intro hn
      rcases hfr.2 with ⟨e1, e2⟩ | ⟨-, -, e3⟩
      · rw [e1, e2]; exact ⟨hk, hp⟩
      · rw [e3, pause_ok hk] at hn; exact absurd rfl hn
    split
    · rename_i hhd
      rw [isHead_iff] at hhd
      have hp1 : b ≠ none → c1.responsePending = true := by
        match b with
        | none => exact fun h => absurd rfl h
        | some true => exact fun _ => hpe rfl
        | some false => exact absurd hhd h1.gentle.2.2.2.1
      have hc1 : CInv b { c1 with p := c1.p.pause } := h1.change (Or.inl rfl) rfl rfl rfl (Or.inl ⟨rfl, rfl⟩) rfl rfl h1.gentle
      refine ⟨hc1.messageComplete he hp1, fun hn => absurd ?_ hn⟩
      have hst : c1.p.pause.status ≠ 100 := by
        rw [pause_status]
        rcases hfr.2 with ⟨-, e⟩ | ⟨-, -, e⟩
        · rw [e]; exact hs
        · rw [e, pause_status]; exact hs
      rw [(messageComplete_framed hf (c := { c1 with p := c1.p.pause }) hfr.1 hst).2.2]
      show c1.p.pause.errno = .paused
      rcases hfr.2 with ⟨-, e⟩ | ⟨-, -, e⟩
      · rw [e, pause_ok hk]
      · rw [e, pause_pause hk, pause_ok hk]
    · split
      · exact ⟨h1.change (Or.inl rfl) rfl rfl rfl (Or.inl ⟨rfl, rfl⟩) rfl rfl h1.gentle, hq⟩
      · exact ⟨h1, hq⟩

theorem clientCb_inv {b : Option Bool} {em : Signal → Client → Client} (he : EmOk b em) (hf : EmFramed em) (hh : EmHeaders em) (env : ClientEnv) :
    ∀ k p (c : Client), p.errno = .ok → CallsOk b c → CallsAny b (clientCb env em k p c).2 ∧
      ((clientCb env em k p c).1.errno ≠ .paused → (clientCb env em k p c).1.errno = .ok ∧ CallsOk b (clientCb env em k p c).2) := by
  intro k p c hk ⟨h, hpa, hp⟩
  have hsame : ∀ (p : HParser) (d : RespData), CInv b { c with p := p, d := d } := fun p d => h.change (Or.inl rfl) rfl rfl rfl (Or.inl ⟨rfl, rfl⟩) rfl rfl h.gentle
  have hsame' : ∀ (p : HParser) (d : RespData), CInv b { c with p := p, parsing := true, d := d } := fun p d => h.change (Or.inl rfl) rfl rfl rfl (Or.inl ⟨rfl, rfl⟩) rfl rfl h.gentle
  cases k with
  | messageBegin => exact ⟨⟨hsame _ _, hpa⟩, fun _ => ⟨hk, hsame _ _, hpa, hp⟩⟩
  | field bs => exact ⟨⟨hsame _ _, hpa⟩, fun _ => ⟨hk, hsame _ _, hpa, hp⟩⟩
  | value bs => exact ⟨⟨hsame _ _, hpa⟩, fun _ => ⟨hk, hsame _ _, hpa, hp⟩⟩
  | headersComplete =>
    have h1 := (hsame' p c.d.push).headersComplete he hf hh env rfl hp hk
    have h2 := headersComplete_p env hf (c := { c with p := p, parsing := true, d := c.d.push }) rfl hk
    exact ⟨⟨h1.1, h2.1⟩, fun hn => ⟨(h1.2 hn).1, h1.1, h2.1, (h1.2 hn).2⟩⟩
  | body bs =>
    have h2 := messageContent_p env hf (c := { c with p := p, parsing := true }) bs rfl
    have h1 : CInv b (Client.messageContent env em bs { c with p := p, parsing := true }) := by
      rw [messageContent_eq]
      obtain ⟨ct, dec, e⟩ := storing_facts env bs { c with p := p, parsing := true }
      rw [e]
      exact he _ _ (h.change (Or.inr ⟨.contentReadyRead _, trivial, rfl⟩) rfl rfl rfl (Or.inl ⟨rfl, rfl⟩) rfl rfl h.gentle)
    refine ⟨⟨h1, h2.1⟩, fun hn => ?_⟩
    rcases h2.2 with ⟨e1, e2⟩ | ⟨-, -, e3⟩
    · exact ⟨(congrArg HParser.errno e2).trans hk, h1, h2.1, e1.trans hp⟩
    · exact absurd ((congrArg HParser.errno e3).trans (by show p.pause.errno = _; rw [pause_ok hk])) hn
  | messageComplete =>
    have h1 : CInv b (Client.messageComplete em { c with p := p, parsing := true }) := (hsame' p c.d).messageComplete he fun _ => hp
    have h2 : (Client.messageComplete em { c with p := p, parsing := true }).parsing = true := by
      by_cases hs : p.status = 100
      · rw [messageComplete_eq, if_pos hs]
        obtain ⟨q, e⟩ := clear_eq { c with p := p, parsing := true, contentDecoder := none }
        show (Client.clear { c with p := p, parsing := true, contentDecoder := none }).parsing = true
        rw [e]
      · exact (messageComplete_framed hf (c := { c with p := p, parsing := true }) rfl hs).1
    refine ⟨⟨h1.change (Or.inl rfl) rfl rfl rfl (Or.inl ⟨rfl, rfl⟩) rfl rfl h1.gentle, h2⟩, fun hn => absurd ?_ hn⟩
    rcases (clientCb_tame env hf).tame .messageComplete p c hk with h | h
    · exact absurd ((congrArg HParser.errno h).trans hk) ((clientCb_tame env hf).done p c hk)
    · exact h.1

/-! ## Outside the parser -/

/-- The state of the parser when it is not running. -/
structure Top (c : Client) : Prop where
  parsing : c.parsing = false
  safe : Safe c.p
  pending : c.responsePending = true → c.p.errno = .ok

def EmTop (em : Signal → Client → Client) : Prop := ∀ s c, Top c → Top (em s c)

theorem pause_safe {p : HParser} (h : Safe p) (hk : p.errno = .ok) : Safe p.pause := by
  have hg := (h.2 (Or.inl hk)).pause hk
  exact ⟨hg.noBad, fun _ => hg⟩

theorem sendRequest_same (c : Client) : c.sendRequest.parsing = c.parsing ∧ c.sendRequest.p = c.p ∧ c.sendRequest.responsePending = c.responsePending := by
  unfold Client.sendRequest
  split
  · exact ⟨rfl, rfl, rfl⟩
  · dsimp only
    split <;> exact ⟨rfl, rfl, rfl⟩

theorem Top.same {c c' : Client} (h : Top c) (h1 : c'.parsing = c.parsing) (h2 : c'.p = c.p) (h3 : c'.responsePending = true → c.responsePending = true) : Top c' :=
  ⟨h1.trans h.parsing, h2 ▸ h.safe, fun hp => by rw [h2]; exact h.pending (h3 hp)⟩

theorem Top.deviceError {em : Signal → Client → Client} (he : EmTop em) {c : Client} (h : Top c) (rc : Bool) : Top (c.deviceError em rc) := by
  unfold Client.deviceError
  split
  · exact h
  · exact he _ _ (h.same rfl rfl (by rintro ⟨⟩))

theorem Top.connectReply {em : Signal → Client → Client} (he : EmTop em) {c : Client} (h : Top c) : Top (c.connectReply em) := by
  unfold Client.connectReply
  dsimp only
  have h1 : Top { c with onConnect := c.onConnect.tail } := h.same rfl rfl id
  split
  · split
    · exact h1
    · obtain ⟨k1, k2, k3⟩ := sendRequest_same { { c with onConnect := c.onConnect.tail } with sock := { c.sock with state := .connected } }
      exact h1.same k1 k2 (fun e => by rw [k3] at e; exact e)
    · exact h1.deviceError he _
  · exact h1

theorem Top.accept {em : Signal → Client → Client} (he : EmTop em) {c : Client} (h : Top c) (r : ClientRequest) : Top (c.accept em r) := by
  unfold Client.accept
  dsimp only
  generalize hc1 : Client.clear { (c.add (.accepted r)) with request := r, responsePending := true, error := .noError } = c1
  have h1 : Top c1 := by
    subst hc1
    unfold Client.clear
    dsimp only
    rw [if_neg (by show ¬ c.parsing = true; rw [h.parsing]; simp)]
    exact ⟨h.parsing, init_safe h.safe.1, fun _ => rfl⟩
  split
  · obtain ⟨k1, k2, k3⟩ := sendRequest_same c1
    exact h1.same k1 k2 (fun e => by rw [k3] at e; exact e)
  · refine Top.connectReply he ?_
    split <;> exact h1.same rfl rfl id

theorem Top.makeRequest {em : Signal → Client → Client} (he : EmTop em) {c : Client} (h : Top c) (r : ClientRequest) : Top (c.makeRequest em r) := by
  unfold Client.makeRequest
  split
  · exact h.same rfl rfl id
  · split
    · exact h.same rfl rfl id
    · exact h.accept he r

theorem Top.call {em : Signal → Client → Client} (he : EmTop em) (env : ClientEnv) {c : Client} (h : Top c) (u : UserCall) : Top (c.call env em u) := by
  cases u with
  | request r => exact h.makeRequest he r
  | abort =>
    show Top (c.abort em)
    unfold Client.abort
    dsimp only
    split
    · rename_i hp
      exact he _ _ ⟨h.parsing, pause_safe h.safe (h.pending hp), by rintro ⟨⟩⟩
    · exact h.same rfl rfl id
  | consumeContent =>
    show Top c.consumeContent
    unfold Client.consumeContent
    dsimp only
    split <;> exact h.same rfl rfl id
  | followRedirection =>
    show Top (c.followRedirection env em)
    unfold Client.followRedirection
    dsimp only
    have h : Top (c.add .followRedirection) := h.same rfl rfl id
    split
    · exact h
    · exact h.makeRequest he _
  | setKeepAliveTimeout ms => exact h.same rfl rfl id
  | setReadBufferSize n => exact h.same rfl rfl id

theorem Top.calls {em : Signal → Client → Client} (he : EmTop em) (env : ClientEnv) : ∀ (l : List UserCall) {c : Client}, Top c → Top (l.foldl (Client.call env em) c)
  | [], _, h => h
  | u :: l, _, h => Top.calls he env l (h.call he env u)

theorem emit_top (env : ClientEnv) : ∀ n, EmTop (Client.emit env n)
  | 0, _, _, h => h.same rfl rfl id
  | n + 1, s, c, h => by
    show Top ((((c.add (c.shows s)).react s).1).foldl (Client.call env (Client.emit env n)) ((c.add (c.shows s)).react s).2)
    refine Top.calls (emit_top env n) env _ ?_
    cases s <;> exact h.same rfl rfl id

/-! ## Input -/

section
variable {b : Option Bool} {em : Signal → Client → Client} (he : EmOk b em) (hf : EmFramed em) (hh : EmHeaders em) (ht : EmTop em) (env : ClientEnv)
include he hf hh

theorem CInv.inject {c : Client} (h : CInv b c) (hp : c.responsePending = true) (data : Bytes) :
    CInv b (c.inject env em data).1 ∧ ((c.inject env em data).1.hasError = true → (c.inject env em data).1.responsePending = true) := by
  have h1 : CallsOk b { c with parsing := true } := ⟨h.change (Or.inl rfl) rfl rfl rfl (Or.inl ⟨rfl, rfl⟩) rfl rfl h.gentle, rfl, hp⟩
  have h2 := inv_execute (cb := clientCb env em) (Iany := CallsAny b) (fun s h => ⟨h.1, h.2.1⟩) (clientCb_inv he hf hh env) h1 (p := c.p) data
  unfold Client.inject Client.hasError
  dsimp only
  generalize execute (clientCb env em) c.p { c with parsing := true } data = x at h2 ⊢
  refine ⟨h2.1.1.change (Or.inl rfl) rfl rfl rfl (Or.inl ⟨rfl, rfl⟩) rfl rfl h2.1.1.gentle, fun herr => ?_⟩
  split at herr
  · cases herr
  · rename_i hn; exact (h2.2 hn).2.2

theorem CInv.receive {c : Client} (h : CInv b c) (hp : c.responsePending = true) (data : Bytes) : CInv b (c.receive env em data) := by
  unfold Client.receive
  dsimp only
  have h1 := h.inject he hf hh env hp data
  generalize (c.inject env em data).2 = n
  generalize (c.inject env em data).1 = c1 at h1 ⊢
  generalize hc2 : (if c1.responsePending then _ else _ : Client) = c2
  have h2 : CInv b c2 := by
    subst hc2
    split
    · rename_i hp1
      generalize hc3 : (if !c1.hasError && decide (n < data.length) then (c1.inject env em (data.drop n)).1 else c1 : Client) = c3
      have h3 : CInv b c3 ∧ (c3.hasError = true → c3.responsePending = true) := by
        subst hc3
        split
        · exact h1.1.inject he hf hh env hp1 _
        · exact ⟨h1.1, fun _ => hp1⟩
      split
      · rename_i herr
        have hp3 := h3.2 herr
        have h4 : CInv b { (c3.add .close) with sock := c3.sock.close } :=
          h3.1.change (Or.inr ⟨.close, trivial, rfl⟩) rfl rfl rfl (Or.inr c3.sock.close_state) rfl rfl h3.1.gentle
        refine he _ _ (h4.finish (fun _ => hp3) rfl ⟨_, _, _, rfl⟩ (fun _ _ => ?_) rfl rfl rfl rfl h3.1.gentle)
        exact (if_neg (c := CError.responseInvalid = CError.aborted) (by simp)).mpr ⟨c3.log, rfl⟩
      · exact h3.1
    · exact h1.1
  split
  · have h3 : CInv b { c2 with pendingRequest := {} } := by
      refine h2.change (Or.inl rfl) rfl rfl rfl (Or.inl ⟨rfl, rfl⟩) rfl rfl ?_
      have hg := h2.gentle
      unfold Gentle at hg ⊢
      match b with
      | none => trivial
      | some true => exact hg
      | some false => exact ⟨hg.1, hg.2.1, hg.2.2.1, hg.2.2.2.1, show ¬ IsHead {} by unfold IsHead; decide⟩
    refine h3.makeRequest he _ ?_
    rintro rfl
    exact h2.gentle.2.2.2.2
  · exact h2

theorem CInv.readyRead {c : Client} (h : CInv b c) : CInv b (c.readyRead env em) := by
  unfold Client.readyRead
  split
  · exact h.change (Or.inr ⟨.close, trivial, rfl⟩) rfl rfl rfl (Or.inr c.sock.close_state) rfl rfl h.gentle
  · rename_i hp
    have hp : c.responsePending = true := by simpa using hp
    split
    · exact h
    · dsimp only
      generalize (if c.sock.readBufferSize > 0 then _ else _ : Nat) = n
      split
      · exact h
      · refine CInv.receive he hf hh env (c := { c with sock := { c.sock with rx := c.sock.rx.drop _ } }) ?_ hp _
        exact h.change (Or.inl rfl) rfl rfl rfl (Or.inl ⟨rfl, rfl⟩) rfl rfl h.gentle

end

theorem CInv.step {b : Option Bool} (env : ClientEnv) (fuel : Nat) {c : Client} (h : CInv b c) (i : CInput) (hi : b = some false → ∀ u, i = .call u → HeadFree [u]) :
    CInv b (c.step env fuel i) := by
  have he := emit_ok b env fuel
  have hf := emit_framed env fuel
  have hh := emit_headers env fuel
  cases i with
  | call u => exact h.call he env u fun hb => hi hb u rfl
  | connected =>
    show CInv b (if c.sock.state = .connecting then { c with sock := { c.sock with state := .connected } }.sendRequest else c)
    split
    · rename_i hc
      obtain ⟨x, hx, hx'⟩ := h.sends
      refine CInv.send (c := { c with sock := { c.sock with state := .connected } }) ?_ rfl ?_
      · exact ⟨h.paired, h.reasons, h.noError, ⟨x, hx, fun hp => by
          obtain ⟨w, h2, _⟩ := hx' hp
          exact ⟨w, h2, fun hk => by cases hk⟩⟩, fun _ => h.net (Or.inl hc), h.host, h.writer, h.gentle⟩
      · intro hp
        obtain ⟨w, h2, h3⟩ := hx' hp
        have := h3 hc
        subst this
        rw [h2] at hx
        exact hx
    · exact h
  | error rc => exact h.deviceError he rc
  | arrive bs =>
    show CInv b (if c.sock.state = .connected ∨ c.sock.state = .closing then { c with sock := { c.sock with rx := c.sock.rx ++ bs } } else c)
    split
    · exact h.change (Or.inl rfl) rfl rfl rfl (Or.inl ⟨rfl, rfl⟩) rfl rfl h.gentle
    · exact h
  | readyRead => exact h.readyRead he hf hh env
  | disconnected => exact h.change (Or.inl rfl) rfl rfl rfl (Or.inr ⟨nofun, nofun⟩) rfl rfl h.gentle
  | unsent u => exact h.change (Or.inl rfl) rfl rfl rfl (Or.inl ⟨rfl, rfl⟩) rfl rfl h.gentle
  | timeout =>
    show CInv b (if c.timers = 0 then c else { c with timers := c.timers - 1 }.readyRead env (Client.emit env fuel))
    split
    · exact h
    · exact CInv.readyRead he hf hh env (c := { c with timers := c.timers - 1 }) (h.change (Or.inl rfl) rfl rfl rfl (Or.inl ⟨rfl, rfl⟩) rfl rfl h.gentle)
  | tick ms => exact h.change (Or.inl rfl) rfl rfl rfl (Or.inl ⟨rfl, rfl⟩) rfl rfl h.gentle

theorem CInv.run {b : Option Bool} (env : ClientEnv) (fuel : Nat) : ∀ (is : List CInput) {c : Client}, CInv b c → (b = some false → ∀ u, .call u ∈ is → HeadFree [u]) →
    CInv b (c.run env fuel is)
  | [], _, h, _ => h
  | i :: is, _, h, hi => CInv.run env fuel is (h.step env fuel i fun hb u e => hi hb u (by simp [e])) fun hb u e => hi hb u (by simp [e])

/-! ## The parser between the inputs -/

section
variable {em : Signal → Client → Client} (hf : EmFramed em) (ht : EmTop em) (env : ClientEnv)
include hf

theorem inject_safe' {c : Client} (h : Safe c.p) (data : Bytes) : Safe (c.inject env em data).1.p ∧ (c.inject env em data).1.parsing = false ∧
    (c.inject env em data).1.p.errno ≠ .paused := by
  refine ⟨unpause_safe (execute_safe (clientCb_tame env hf) h _ data), rfl, ?_⟩
  unfold Client.inject
  dsimp only
  split
  · nofun
  · assumption

include ht

theorem Top.receive {c : Client} (h : Top c) (data : Bytes) : Top (c.receive env em data) := by
  unfold Client.receive
  dsimp only
  have h1 := inject_safe' hf env h.safe data
  generalize (c.inject env em data).2 = n
  generalize (c.inject env em data).1 = c1 at h1 ⊢
  generalize hc2 : (if c1.responsePending then _ else _ : Client) = c2
  have h2 : Top c2 := by
    subst hc2
    split
    · generalize hc3 : (if !c1.hasError && decide (n < data.length) then (c1.inject env em (data.drop n)).1 else c1 : Client) = c3
      have h3 : Safe c3.p ∧ c3.parsing = false ∧ c3.p.errno ≠ .paused := by
        subst hc3
        split
        · exact inject_safe' hf env h1.1 _
        · exact h1
      split
      · exact ht _ _ ⟨h3.2.1, h3.1, by rintro ⟨⟩⟩
      · rename_i herr
        refine ⟨h3.2.1, h3.1, fun _ => ?_⟩
        unfold Client.hasError at herr
        simp at herr
        exact Decidable.byContradiction fun e => h3.2.2 (herr e)
    · rename_i hn
      exact ⟨h1.2.1, h1.1, fun hp => absurd hp hn⟩
  split
  · exact Top.makeRequest ht (c := { c2 with pendingRequest := {} }) (h2.same rfl rfl id) _
  · exact h2

theorem Top.readyRead {c : Client} (h : Top c) : Top (c.readyRead env em) := by
  unfold Client.readyRead
  split
  · exact h.same rfl rfl id
  · split
    · exact h
    · dsimp only
      generalize (if c.sock.readBufferSize > 0 then _ else _ : Nat) = n
      split
      · exact h
      · exact Top.receive hf ht env (c := { c with sock := { c.sock with rx := c.sock.rx.drop _ } }) (h.same rfl rfl id) _

end

theorem Top.step (env : ClientEnv) (fuel : Nat) {c : Client} (h : Top c) (i : CInput) : Top (c.step env fuel i) := by
  have hf := emit_framed env fuel
  have ht := emit_top env fuel
  cases i with
  | call u => exact h.call ht env u
  | connected =>
    show Top (if c.sock.state = .connecting then { c with sock := { c.sock with state := .connected } }.sendRequest else c)
    split
    · obtain ⟨k1, k2, k3⟩ := sendRequest_same { c with sock := { c.sock with state := .connected } }
      exact h.same k1 k2 (fun e => by rw [k3] at e; exact e)
    · exact h
  | error rc => exact h.deviceError ht rc
  | arrive bs =>
    show Top (if c.sock.state = .connected ∨ c.sock.state = .closing then { c with sock := { c.sock with rx := c.sock.rx ++ bs } } else c)
    split
    · exact h.same rfl rfl id
    · exact h
  | readyRead => exact h.readyRead hf ht env
  | disconnected => exact h.same rfl rfl id
  | unsent u => exact h.same rfl rfl id
  | timeout =>
    show Top (if c.timers = 0 then c else { c with timers := c.timers - 1 }.readyRead env (Client.emit env fuel))
    split
    · exact h
    · exact Top.readyRead hf ht env (c := { c with timers := c.timers - 1 }) (h.same rfl rfl id)
  | tick ms => exact h.same rfl rfl id

theorem Top.run (env : ClientEnv) (fuel : Nat) : ∀ (is : List CInput) {c : Client}, Top c → Top (c.run env fuel is)
  | [], _, h => h
  | i :: is, _, h => Top.run env fuel is (h.step env fuel i)

theorem new_top (onH onC onF : List (List UserCall)) (onK : List SockReply) : Top (Client.new onH onC onF onK) :=
  ⟨rfl, ⟨rfl, fun _ => Good.plain rfl (Nat.zero_le _) (by simp [Client.new])⟩, by rintro ⟨⟩⟩

theorem new_inv (b : Option Bool) (onH onC onF : List (List UserCall)) (onK : List SockReply) (h : Gentle b (Client.new onH onC onF onK)) : CInv b (Client.new onH onC onF onK) :=
  ⟨fun _ => .nil, by intro _ l₁ e st hs ct l₂ h; simp [Client.new] at h, by rintro ⟨⟩, ⟨none, .nil, by rintro ⟨⟩⟩, (by rintro (h | h) <;> cases h), Or.inl rfl, rfl, h⟩

end Pillow
