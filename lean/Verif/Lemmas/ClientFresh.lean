import Verif.Lemmas.ClientLog
/-!
# Nothing is left from an earlier response
-/
namespace Pillow
open Spec

/-- Nothing is left from an earlier response, and nothing of the next one has arrived. -/
structure Fresh (c : Client) : Prop where
  field : c.d.field = []
  value : c.d.value = []
  decoder : c.contentDecoder = none
  rx : c.sock.rx = []
  start : c.parsing = false → c.responsePending = true → c.p.state = .startRes ∧ c.p.nread = 0 ∧ c.d.content = [] ∧ c.error = .noError

def EmFresh (em : Signal → Client → Client) : Prop := ∀ s c, Fresh c → Fresh (em s c)

theorem Fresh.same {c c' : Client} (h : Fresh c) (e1 : c'.d.field = c.d.field) (e2 : c'.d.value = c.d.value) (e3 : c'.contentDecoder = c.contentDecoder) (e4 : c'.sock.rx = c.sock.rx ∨ c'.sock.rx = [])
    (e5 : c'.responsePending = false ∨ (c'.p = c.p ∧ (c'.d.content = c.d.content ∨ c'.d.content = []) ∧ c'.error = c.error ∧ c'.parsing = c.parsing ∧ c'.responsePending = c.responsePending)) : Fresh c' := by
  refine ⟨e1.trans h.field, e2.trans h.value, e3.trans h.decoder, e4.elim (fun e => e.trans h.rx) id, fun h1 h2 => ?_⟩
  rcases e5 with e | ⟨k1, k2, k3, k4, k5⟩
  · rw [e] at h2; cases h2
  · obtain ⟨x1, x2, x3, x4⟩ := h.start (k4 ▸ h1) (k5 ▸ h2)
    rw [k1]
    exact ⟨x1, x2, k2.elim (fun e => e.trans x3) id, k3.trans x4⟩

theorem sendRequest_fresh {c : Client} (h : Fresh c) : Fresh c.sendRequest := by
  unfold Client.sendRequest
  split
  · exact h
  · dsimp only
    split
    · exact h.same rfl rfl rfl (Or.inl rfl) (Or.inr ⟨rfl, Or.inl rfl, rfl, rfl, rfl⟩)
    · exact h.same rfl rfl rfl (Or.inl rfl) (Or.inr ⟨rfl, Or.inl rfl, rfl, rfl, rfl⟩)

theorem accepting_fresh {c : Client} (h : Fresh c) (hp : c.parsing = false) (r : ClientRequest) : Fresh (c.accepting r) := by
  have e : c.accepting r = { (c.add (.accepted r)) with request := r, responsePending := true, error := .noError, p := c.p.init, d := { c.d with headers := [], content := [] } } := by
    unfold Client.accepting Client.clear
    dsimp only
    rw [if_neg (by simp [Client.add, hp])]
    rfl
  rw [e]
  exact ⟨h.field, h.value, h.decoder, h.rx, fun _ _ => ⟨rfl, rfl, rfl, rfl⟩⟩

theorem disconnect_rx (k : Sock) : k.disconnectFromHost.rx = k.rx := rfl

theorem connect_rx (k : Sock) (a : Bytes) (n : Nat) : (k.connectToHost a n).rx = k.rx ∨ (k.connectToHost a n).rx = [] := by
  unfold Sock.connectToHost
  split
  · exact Or.inr rfl
  · exact Or.inl rfl

theorem reconnecting_fresh {c : Client} (h : Fresh c) : Fresh c.reconnecting := by
  unfold Client.reconnecting
  dsimp only
  split
  · refine h.same rfl rfl rfl ?_ (Or.inr ⟨rfl, Or.inl rfl, rfl, rfl, rfl⟩)
    exact connect_rx c.sock.disconnectFromHost _ _
  · refine h.same rfl rfl rfl ?_ (Or.inr ⟨rfl, Or.inl rfl, rfl, rfl, rfl⟩)
    exact connect_rx c.sock _ _

section
variable {em : Signal → Client → Client} (he : EmFresh em)
include he

theorem deviceError_fresh {c : Client} (h : Fresh c) (rc : Bool) : Fresh (c.deviceError em rc) := by
  unfold Client.deviceError
  split
  · exact h
  · exact he _ _ (h.same rfl rfl rfl (Or.inr rfl) (Or.inl rfl))

theorem connectReply_fresh {c : Client} (h : Fresh c) : Fresh (c.connectReply em) := by
  have h0 : Fresh { c with onConnect := c.onConnect.tail } := h.same rfl rfl rfl (Or.inl rfl) (Or.inr ⟨rfl, Or.inl rfl, rfl, rfl, rfl⟩)
  unfold Client.connectReply
  dsimp only
  split
  · split
    · exact h0
    · exact sendRequest_fresh (h.same rfl rfl rfl (Or.inl rfl) (Or.inr ⟨rfl, Or.inl rfl, rfl, rfl, rfl⟩))
    · exact deviceError_fresh he h0 _
  · exact h0

theorem accept_fresh {c : Client} (h : Fresh c) (hp : c.parsing = false) (r : ClientRequest) : Fresh (c.accept em r) := by
  rw [accept_eq]
  have h1 := accepting_fresh h hp r
  split
  · exact sendRequest_fresh h1
  · exact connectReply_fresh he (reconnecting_fresh h1)

theorem makeRequest_fresh {c : Client} (h : Fresh c) (r : ClientRequest) : Fresh (c.makeRequest em r) := by
  unfold Client.makeRequest
  split
  · exact h.same rfl rfl rfl (Or.inl rfl) (Or.inr ⟨rfl, Or.inl rfl, rfl, rfl, rfl⟩)
  · split
    · exact h.same rfl rfl rfl (Or.inl rfl) (Or.inr ⟨rfl, Or.inl rfl, rfl, rfl, rfl⟩)
    · rename_i hp
      exact accept_fresh he h (by simpa using hp) r

theorem call_fresh (env : ClientEnv) {c : Client} (h : Fresh c) (u : UserCall) : Fresh (c.call env em u) := by
  cases u with
  | request r => exact makeRequest_fresh he h r
  | abort =>
    show Fresh (c.abort em)
    unfold Client.abort
    dsimp only
    split
    · exact he _ _ (h.same rfl rfl rfl (Or.inr rfl) (Or.inl rfl))
    · exact h.same rfl rfl rfl (Or.inr rfl) (Or.inr ⟨rfl, Or.inl rfl, rfl, rfl, rfl⟩)
  | consumeContent =>
    show Fresh c.consumeContent
    unfold Client.consumeContent
    dsimp only
    split <;> exact h.same rfl rfl rfl (Or.inl rfl) (Or.inr ⟨rfl, Or.inr rfl, rfl, rfl, rfl⟩)
  | followRedirection =>
    show Fresh (c.followRedirection env em)
    unfold Client.followRedirection
    dsimp only
    have h : Fresh (c.add .followRedirection) := h.same rfl rfl rfl (Or.inl rfl) (Or.inr ⟨rfl, Or.inl rfl, rfl, rfl, rfl⟩)
    split
    · exact h
    · exact makeRequest_fresh he h _
  | setKeepAliveTimeout ms => exact h.same rfl rfl rfl (Or.inl rfl) (Or.inr ⟨rfl, Or.inl rfl, rfl, rfl, rfl⟩)
  | setReadBufferSize n => exact h.same rfl rfl rfl (Or.inl rfl) (Or.inr ⟨rfl, Or.inl rfl, rfl, rfl, rfl⟩)

theorem calls_fresh (env : ClientEnv) : ∀ (l : List UserCall) {c : Client}, Fresh c → Fresh (l.foldl (Client.call env em) c)
  | [], _, h => h
  | u :: l, _, h => calls_fresh env l (call_fresh he env h u)

end

theorem emit_fresh (env : ClientEnv) : ∀ n, EmFresh (Client.emit env n)
  | 0, _, _, h => h.same rfl rfl rfl (Or.inl rfl) (Or.inr ⟨rfl, Or.inl rfl, rfl, rfl, rfl⟩)
  | n + 1, s, c, h => by
    show Fresh ((((c.add (c.shows s)).react s).1).foldl (Client.call env (Client.emit env n)) ((c.add (c.shows s)).react s).2)
    refine calls_fresh (emit_fresh env n) env _ ?_
    cases s <;> exact h.same rfl rfl rfl (Or.inl rfl) (Or.inr ⟨rfl, Or.inl rfl, rfl, rfl, rfl⟩)

theorem readyRead_fresh {env : ClientEnv} {em : Signal → Client → Client} {c : Client} (h : Fresh c) : Fresh (c.readyRead env em) := by
  unfold Client.readyRead
  split
  · exact h.same rfl rfl rfl (Or.inr rfl) (Or.inr ⟨rfl, Or.inl rfl, rfl, rfl, rfl⟩)
  · rw [if_pos (by rw [h.rx]; rfl)]
    exact h

/-- Whatever happens, as long as no data arrives. -/
theorem step_fresh (env : ClientEnv) (fuel : Nat) {c : Client} (h : Fresh c) {i : CInput} (hi : ∀ bs, i = .arrive bs → bs = []) : Fresh (c.step env fuel i) := by
  have he := emit_fresh env fuel
  cases i with
  | call u => exact call_fresh he env h u
  | connected =>
    show Fresh (if c.sock.state = .connecting then { c with sock := { c.sock with state := .connected } }.sendRequest else c)
    split
    · exact sendRequest_fresh (h.same rfl rfl rfl (Or.inl rfl) (Or.inr ⟨rfl, Or.inl rfl, rfl, rfl, rfl⟩))
    · exact h
  | error rc => exact deviceError_fresh he h rc
  | arrive bs =>
    rw [hi bs rfl]
    show Fresh (if c.sock.state = .connected ∨ c.sock.state = .closing then { c with sock := { c.sock with rx := c.sock.rx ++ [] } } else c)
    split
    · exact h.same rfl rfl rfl (Or.inl (by simp)) (Or.inr ⟨rfl, Or.inl rfl, rfl, rfl, rfl⟩)
    · exact h
  | readyRead => exact readyRead_fresh h
  | disconnected => exact h.same rfl rfl rfl (Or.inl rfl) (Or.inr ⟨rfl, Or.inl rfl, rfl, rfl, rfl⟩)
  | unsent u => exact h.same rfl rfl rfl (Or.inl rfl) (Or.inr ⟨rfl, Or.inl rfl, rfl, rfl, rfl⟩)
  | timeout =>
    show Fresh (if c.timers = 0 then c else { c with timers := c.timers - 1 }.readyRead env (Client.emit env fuel))
    split
    · exact h
    · exact readyRead_fresh (c := { c with timers := c.timers - 1 }) (h.same rfl rfl rfl (Or.inl rfl) (Or.inr ⟨rfl, Or.inl rfl, rfl, rfl, rfl⟩))
  | tick ms => exact h.same rfl rfl rfl (Or.inl rfl) (Or.inr ⟨rfl, Or.inl rfl, rfl, rfl, rfl⟩)

theorem run_fresh (env : ClientEnv) (fuel : Nat) : ∀ (is : List CInput) {c : Client}, Fresh c → (∀ bs, .arrive bs ∈ is → bs = []) → Fresh (c.run env fuel is)
  | [], _, h, _ => h
  | i :: is, _, h, hi => run_fresh env fuel is (step_fresh env fuel h fun bs e => hi bs (by simp [e])) fun bs hb => hi bs (by simp [hb])

theorem new_fresh (onH onC onF : List (List UserCall)) (onK : List SockReply) : Fresh (Client.new onH onC onF onK) := ⟨rfl, rfl, rfl, rfl, by rintro - ⟨⟩⟩

end Pillow
