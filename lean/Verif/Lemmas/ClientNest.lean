import Verif.Spec.Nest
import Verif.Lemmas.ClientLog
import Verif.Lemmas.ParserRel
/-!
# Signals nest no deeper than the application reacts
-/
namespace Pillow.Nest
open Pillow Pillow.Spec

/-- Two results of the same code are the same, and no reactions have been added. -/
def Same (c x y : Client) : Prop := x = y ∧ reactions x ≤ reactions c

theorem Same.from {c c' x y : Client} (h : Same c' x y) (hc : reactions c' = reactions c) : Same c x y := ⟨h.1, hc ▸ h.2⟩

theorem Same.from_le {c c' x y : Client} (h : Same c' x y) (hc : reactions c' ≤ reactions c) : Same c x y := ⟨h.1, Nat.le_trans h.2 hc⟩

theorem same_self {c x : Client} (h : reactions x ≤ reactions c) : Same c x x := ⟨rfl, h⟩

/-- Two ways to emit signals do the same, for clients with at most `n` reactions. -/
def Agree (n : Nat) (em em' : Signal → Client → Client) : Prop := ∀ s c, reactions c ≤ n → Same c (em s c) (em' s c)

theorem clear_reactions (c : Client) : reactions c.clear = reactions c := by
  unfold Client.clear
  dsimp only
  split <;> rfl

theorem sendRequest_reactions (c : Client) : reactions c.sendRequest = reactions c := by
  unfold Client.sendRequest
  split
  · rfl
  · dsimp only
    split <;> rfl

theorem accepting_reactions (c : Client) (r : ClientRequest) : reactions (c.accepting r) = reactions c := by
  unfold Client.accepting
  exact clear_reactions _

theorem reconnecting_reactions (c : Client) : reactions c.reconnecting = reactions c := by
  unfold Client.reconnecting
  dsimp only
  split <;> rfl

theorem completing_reactions (c : Client) : reactions c.completing = reactions c := by
  unfold Client.completing
  dsimp only
  split
  · rfl
  · split <;> rfl

theorem storing_reactions (env : ClientEnv) (bs : Bytes) (c : Client) : reactions (c.storing env bs) = reactions c := by
  unfold Client.storing
  split <;> rfl

section
variable {n : Nat} {em em' : Signal → Client → Client} (ha : Agree n em em')
include ha

theorem deviceError_same {c : Client} (hn : reactions c ≤ n) (rc : Bool) : Same c (c.deviceError em rc) (c.deviceError em' rc) := by
  unfold Client.deviceError
  split
  · exact same_self (Nat.le_refl _)
  · exact (ha _ _ hn)

theorem connectReply_same {c : Client} (hn : reactions c ≤ n) : Same c (c.connectReply em) (c.connectReply em') := by
  unfold Client.connectReply
  dsimp only
  split
  · split
    · exact same_self (Nat.le_refl _)
    · exact same_self (Nat.le_of_eq (sendRequest_reactions _))
    · exact deviceError_same ha (c := { c with onConnect := c.onConnect.tail }) hn _
  · exact same_self (Nat.le_refl _)

theorem makeRequest_same {c : Client} (hn : reactions c ≤ n) (r : ClientRequest) : Same c (c.makeRequest em r) (c.makeRequest em' r) := by
  unfold Client.makeRequest
  split
  · exact same_self (Nat.le_refl _)
  · split
    · exact same_self (Nat.le_refl _)
    · rw [accept_eq, accept_eq]
      have e := accepting_reactions c r
      split
      · exact same_self (Nat.le_of_eq ((sendRequest_reactions _).trans e))
      · have e2 := (reconnecting_reactions (c.accepting r)).trans e
        exact (connectReply_same ha (c := (c.accepting r).reconnecting) (by rw [e2]; exact hn)).from e2

theorem call_same (env : ClientEnv) {c : Client} (hn : reactions c ≤ n) (u : UserCall) : Same c (c.call env em u) (c.call env em' u) := by
  cases u with
  | request r => exact makeRequest_same ha hn r
  | abort =>
    show Same c (c.abort em) (c.abort em')
    unfold Client.abort
    dsimp only
    split
    · exact ha _ _ hn
    · exact same_self (Nat.le_refl _)
  | consumeContent =>
    refine same_self ?_
    show reactions c.consumeContent ≤ _
    unfold Client.consumeContent
    dsimp only
    split <;> exact Nat.le_refl _
  | followRedirection =>
    show Same c (c.followRedirection env em) (c.followRedirection env em')
    unfold Client.followRedirection
    dsimp only
    split
    · exact same_self (Nat.le_refl _)
    · exact makeRequest_same ha (c := c.add .followRedirection) hn _
  | setKeepAliveTimeout ms => exact same_self (Nat.le_refl _)
  | setReadBufferSize j => exact same_self (Nat.le_refl _)

theorem calls_same (env : ClientEnv) : ∀ (l : List UserCall) {c : Client}, reactions c ≤ n → Same c (l.foldl (Client.call env em) c) (l.foldl (Client.call env em') c)
  | [], _, _ => same_self (Nat.le_refl _)
  | u :: l, c, hn => by
    have h1 := call_same ha env hn u
    have h2 := calls_same env l (c := c.call env em u) (Nat.le_trans h1.2 hn)
    show Same c (l.foldl (Client.call env em) (c.call env em u)) (l.foldl (Client.call env em') (c.call env em' u))
    rw [← h1.1]
    exact h2.from_le h1.2

end

/-- One reaction less. -/
theorem react_reactions (c : Client) (s : Signal) : (c.react s).1 = [] ∧ reactions (c.react s).2 ≤ reactions c ∨ reactions (c.react s).2 + 1 = reactions c := by
  cases s
  · show c.onHeaders.headD [] = [] ∧ _ ∨ _
    cases h : c.onHeaders with
    | nil => exact .inl ⟨rfl, by simp [Client.react, reactions, h]⟩
    | cons a l => exact .inr (by simp [Client.react, reactions, h]; omega)
  · show c.onContent.headD [] = [] ∧ _ ∨ _
    cases h : c.onContent with
    | nil => exact .inl ⟨rfl, by simp [Client.react, reactions, h]⟩
    | cons a l => exact .inr (by simp [Client.react, reactions, h]; omega)
  · show c.onFinished.headD [] = [] ∧ _ ∨ _
    cases h : c.onFinished with
    | nil => exact .inl ⟨rfl, by simp [Client.react, reactions, h]⟩
    | cons a l => exact .inr (by simp [Client.react, reactions, h]; omega)

/-- Without reactions, a signal is only observed. -/
theorem emit_none (env : ClientEnv) {c : Client} (h : reactions c = 0) (s : Signal) : ∀ f, Client.emit env f s c = c.add (c.shows s)
  | 0 => rfl
  | f + 1 => by
    have h1 : c.onHeaders = [] := List.length_eq_zero_iff.1 (by unfold reactions at h; omega)
    have h2 : c.onContent = [] := List.length_eq_zero_iff.1 (by unfold reactions at h; omega)
    have h3 : c.onFinished = [] := List.length_eq_zero_iff.1 (by unfold reactions at h; omega)
    show (((c.add (c.shows s)).react s).1).foldl (Client.call env (Client.emit env f)) ((c.add (c.shows s)).react s).2 = _
    cases c
    cases h1; cases h2; cases h3
    cases s <;> rfl

theorem emit_agree (env : ClientEnv) : ∀ (n f g : Nat), n ≤ f → n ≤ g → Agree n (Client.emit env f) (Client.emit env g)
  | 0, f, g, _, _ => fun s c hn => by
    have h0 : reactions c = 0 := by omega
    rw [emit_none env h0, emit_none env h0]
    exact same_self (Nat.le_refl _)
  | n + 1, 0, _, h, _ => absurd h (by omega)
  | n + 1, _, 0, _, h => absurd h (by omega)
  | n + 1, f + 1, g + 1, hf, hg => fun s c hn => by
    show Same c ((((c.add (c.shows s)).react s).1).foldl (Client.call env (Client.emit env f)) ((c.add (c.shows s)).react s).2)
      ((((c.add (c.shows s)).react s).1).foldl (Client.call env (Client.emit env g)) ((c.add (c.shows s)).react s).2)
    rcases react_reactions (c.add (c.shows s)) s with ⟨h1, h2⟩ | h1
    · rw [h1]; exact same_self h2
    · have e : reactions (c.add (c.shows s)) = reactions c := rfl
      exact (calls_same (emit_agree env n f g (by omega) (by omega)) env _ (by omega)).from_le (by omega)

/-! ## The callbacks -/

section
variable {n : Nat} {em em' : Signal → Client → Client} (ha : Agree n em em') (env : ClientEnv)
include ha

theorem messageComplete_same {c : Client} (hn : reactions c ≤ n) : Same c (c.messageComplete em) (c.messageComplete em') := by
  rw [messageComplete_eq, messageComplete_eq]
  split
  · exact same_self (Nat.le_of_eq (clear_reactions _))
  · exact (ha .finished c.completing (by rw [completing_reactions]; exact hn)).from (completing_reactions c)

theorem headersComplete_same {c : Client} (hn : reactions c ≤ n) : Same c (c.headersComplete env em) (c.headersComplete env em') := by
  unfold Client.headersComplete
  split
  · exact same_self (Nat.le_refl _)
  · have h1 := ha .headers c hn
    dsimp only
    rw [← h1.1]
    have h2 := h1.2
    generalize em .headers c = c1 at h2
    split
    · exact (messageComplete_same ha (c := { c1 with p := c1.p.pause }) (Nat.le_trans h2 hn)).from_le h2
    · split
      · exact same_self h2
      · exact same_self h2

theorem clientCb_same (k : Cb) (p : HParser) {c : Client} (hn : reactions c ≤ n) :
    clientCb env em k p c = clientCb env em' k p c ∧ reactions (clientCb env em k p c).2 ≤ reactions c := by
  cases k with
  | messageBegin => exact ⟨rfl, Nat.le_refl _⟩
  | field bs => exact ⟨rfl, Nat.le_refl _⟩
  | value bs => exact ⟨rfl, Nat.le_refl _⟩
  | headersComplete =>
    have h := headersComplete_same ha env (c := { c with p := p, parsing := true, d := c.d.push }) hn
    exact ⟨congrArg (fun x : Client => (x.p, x)) h.1, h.2⟩
  | body bs =>
    have e := storing_reactions env bs { c with p := p, parsing := true }
    have h := ha .content (Client.storing env bs { c with p := p, parsing := true }) (by rw [e]; exact hn)
    refine ⟨?_, ?_⟩
    · show ((Client.messageContent env em bs { c with p := p, parsing := true }).p, Client.messageContent env em bs { c with p := p, parsing := true }) =
        ((Client.messageContent env em' bs { c with p := p, parsing := true }).p, Client.messageContent env em' bs { c with p := p, parsing := true })
      rw [messageContent_eq, messageContent_eq, h.1]
    · show reactions (Client.messageContent env em bs { c with p := p, parsing := true }) ≤ _
      rw [messageContent_eq]
      exact (h.from e).2
  | messageComplete =>
    have h := messageComplete_same ha (c := { c with p := p, parsing := true }) hn
    exact ⟨congrArg (fun x : Client => (x.p.pause, { x with p := x.p.pause })) h.1, h.2⟩

variable (hf : EmFramed em)
include hf

theorem inject_same {c : Client} (hn : reactions c ≤ n) (data : Bytes) : c.inject env em data = c.inject env em' data ∧ reactions (c.inject env em data).1 ≤ n := by
  have h := rel_execute (cb := clientCb env em) (cb' := clientCb env em') (Rok := fun s t => s = t ∧ reactions s ≤ n) (Rany := fun s t => s = t ∧ reactions s ≤ n)
    (fun k p s t hk ⟨e, hs⟩ => by
      subst e
      obtain ⟨h1, h2⟩ := clientCb_same ha env k p hs
      refine ⟨congrArg Prod.fst h1, ⟨congrArg Prod.snd h1, Nat.le_trans h2 hs⟩, fun hn => ⟨?_, congrArg Prod.snd h1, Nat.le_trans h2 hs⟩⟩
      rcases (clientCb_tame env hf).tame k p s hk with e | e
      · exact (congrArg HParser.errno e).trans hk
      · exact absurd e.1 hn)
    (fun _ _ h => h) (p := c.p) (s := { c with parsing := true }) (t := { c with parsing := true }) ⟨rfl, hn⟩ data
  have e : execute (clientCb env em) c.p { c with parsing := true } data = execute (clientCb env em') c.p { c with parsing := true } data :=
    Prod.ext h.parser (Prod.ext h.any.1 h.consumed)
  refine ⟨?_, ?_⟩
  · unfold Client.inject
    rw [e]
  · exact h.any.2

theorem receive_same {c : Client} (hn : reactions c ≤ n) (data : Bytes) : c.receive env em data = c.receive env em' data ∧ reactions (c.receive env em data) ≤ n := by
  obtain ⟨e1, h1⟩ := inject_same ha env hf hn data
  unfold Client.receive
  dsimp only
  rw [← e1]
  generalize (c.inject env em data).2 = i
  generalize (c.inject env em data).1 = c1 at h1
  obtain ⟨e2, h2⟩ := inject_same ha env hf h1 (data.drop i)
  rw [← e2]
  generalize hc3 : (if !c1.hasError && decide (i < data.length) then (c1.inject env em (data.drop i)).1 else c1 : Client) = c3
  have h3 : reactions c3 ≤ n := by
    subst hc3
    split
    · exact h2
    · exact h1
  have h4 := ha .finished { (c3.add .close) with error := .responseInvalid, sock := c3.sock.close, responsePending := false } h3
  have h4e := h4.1
  have h4r := Nat.le_trans h4.2 h3
  rw [← h4e]
  generalize hc2 : (if c1.responsePending then _ else _ : Client) = c2
  have h5 : reactions c2 ≤ n := by
    subst hc2
    split
    · split
      · exact h4r
      · exact h3
    · exact h1
  have h6 := makeRequest_same ha (c := { c2 with pendingRequest := {} }) h5 c2.pendingRequest
  rw [← h6.1]
  refine ⟨rfl, ?_⟩
  split
  · exact Nat.le_trans h6.2 h5
  · exact h5

theorem readyRead_same {c : Client} (hn : reactions c ≤ n) : c.readyRead env em = c.readyRead env em' ∧ reactions (c.readyRead env em) ≤ n := by
  unfold Client.readyRead
  split
  · exact ⟨rfl, hn⟩
  · split
    · exact ⟨rfl, hn⟩
    · dsimp only
      generalize (if c.sock.readBufferSize > 0 then c.sock.readBufferSize - c.d.content.length else c.sock.rx.length) = k
      split
      · exact ⟨rfl, hn⟩
      · exact receive_same ha env hf (c := { c with sock := { c.sock with rx := c.sock.rx.drop k } }) hn _

end

theorem step_same (env : ClientEnv) {n f g : Nat} (hf : n ≤ f) (hg : n ≤ g) {c : Client} (hn : reactions c ≤ n) (i : CInput) :
    c.step env f i = c.step env g i ∧ reactions (c.step env f i) ≤ n := by
  have ha := emit_agree env n f g hf hg
  have hfr := emit_framed env f
  cases i with
  | call u =>
    have h := call_same ha env hn u
    exact ⟨h.1, Nat.le_trans h.2 hn⟩
  | connected =>
    refine ⟨rfl, ?_⟩
    show reactions (if c.sock.state = .connecting then { c with sock := { c.sock with state := .connected } }.sendRequest else c) ≤ n
    split
    · rw [sendRequest_reactions]; exact hn
    · exact hn
  | error rc =>
    have h := deviceError_same ha hn rc
    exact ⟨h.1, Nat.le_trans h.2 hn⟩
  | arrive bs =>
    refine ⟨rfl, ?_⟩
    show reactions (if c.sock.state = .connected ∨ c.sock.state = .closing then { c with sock := { c.sock with rx := c.sock.rx ++ bs } } else c) ≤ n
    split <;> exact hn
  | readyRead => exact readyRead_same ha env hfr hn
  | disconnected => exact ⟨rfl, hn⟩
  | unsent u => exact ⟨rfl, hn⟩
  | timeout =>
    show (if c.timers = 0 then c else { c with timers := c.timers - 1 }.readyRead env (Client.emit env f)) = (if c.timers = 0 then c else { c with timers := c.timers - 1 }.readyRead env (Client.emit env g)) ∧
      reactions (if c.timers = 0 then c else { c with timers := c.timers - 1 }.readyRead env (Client.emit env f)) ≤ n
    split
    · exact ⟨rfl, hn⟩
    · exact readyRead_same ha env hfr (c := { c with timers := c.timers - 1 }) hn
  | tick ms => exact ⟨rfl, hn⟩

theorem run_same (env : ClientEnv) {n f g : Nat} (hf : n ≤ f) (hg : n ≤ g) : ∀ (is : List CInput) {c : Client}, reactions c ≤ n → c.run env f is = c.run env g is ∧ reactions (c.run env f is) ≤ n
  | [], _, hn => ⟨rfl, hn⟩
  | i :: is, c, hn => by
    obtain ⟨e, h⟩ := step_same env hf hg hn i
    obtain ⟨e', h'⟩ := run_same env hf hg is h
    refine ⟨?_, h'⟩
    show (c.step env f i).run env f is = (c.step env g i).run env g is
    rw [← e]; exact e'

end Pillow.Nest
