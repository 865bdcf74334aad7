import Verif.Lemmas.ClientNest
/-!
# C86: how deep the signals of the client nest
-/
namespace Pillow.Props
open Pillow Pillow.Spec Pillow.Nest

/-- **C86**: signals of the client nest no deeper than the application reacts to them: what happens does not depend on how deep the
model lets them nest, as soon as that is the number of reactions the application has in store.  So every call and every event is done
with after finitely many emissions, whatever the slots do. -/
theorem C86_returns (env : ClientEnv) (c : Client) (inputs : List CInput) (fuel : Nat) (h : reactions c ≤ fuel) :
    c.run env fuel inputs = c.run env (reactions c) inputs :=
  (run_same env h (Nat.le_refl _) inputs (Nat.le_refl _)).1

/-- An application that makes its request again when it has failed, twice; the third attempt is under way when the first call returns. -/
example : let r : ClientRequest := { method := some b!"GET", url := { host := b!"localhost" } }
    let c := Client.new [] [] [[.request r], [.request r]] [.error false, .error true]
    reactions c = 2 ∧ c.run ⟨none, fun _ => {}⟩ 1000000 [.call (.request r)] = c.run ⟨none, fun _ => {}⟩ 2 [.call (.request r)] ∧
      finishes (c.run ⟨none, fun _ => {}⟩ 2 [.call (.request r)]).log = 2 ∧ (c.run ⟨none, fun _ => {}⟩ 2 [.call (.request r)]).responsePending = true := by
  refine ⟨rfl, C86_returns _ _ _ _ (by decide), by decide +kernel, by decide +kernel⟩

/-! ## It does nest -/

/-- An application that makes a request and, whenever it has failed, makes it again; connections fail as soon as they are asked for. -/
structure Retries (c : Client) (r : ClientRequest) (n : Nat) : Prop where
  idle : c.responsePending = false
  outside : c.parsing = false
  state : c.sock.state = .unconnected
  unsent : c.sock.unsent = false
  onFinished : c.onFinished = List.replicate n [.request r]
  onConnect : ∃ m, c.onConnect = List.replicate (n + m + 1) (.error false)

theorem finishes_append (a b : List CEv) : finishes (a ++ b) = finishes a + finishes b := by unfold finishes; exact List.countP_append ..

/-- A request that fails at once. -/
theorem request_fails (em : Signal → Client → Client) {c : Client} {r : ClientRequest} {n : Nat} (h : Retries c r n) :
    ∃ x, c.makeRequest em r = em .finished x ∧ finishes x.log = finishes c.log ∧ x.responsePending = false ∧ x.parsing = false ∧ x.sock.state = .unconnected ∧ x.sock.unsent = false ∧
      x.onFinished = c.onFinished ∧ x.onConnect = c.onConnect.tail := by
  have e1 : c.accepting r = { (c.add (.accepted r)) with request := r, responsePending := true, error := .noError, p := c.p.init, d := { c.d with headers := [], content := [] } } := by
    unfold Client.accepting Client.clear
    dsimp only
    rw [if_neg (by simp [Client.add, h.outside])]
    rfl
  obtain ⟨m, hm⟩ := h.onConnect
  unfold Client.makeRequest
  rw [if_neg (by simp [h.idle]), if_neg (by simp [h.outside]), accept_eq]
  have hst : (c.accepting r).sock.state = .unconnected := by rw [e1]; exact h.state
  have hnot : ((c.accepting r).sock.state == .connected) = false := by rw [hst]; rfl
  rw [if_neg (by rw [hnot]; simp)]
  have e2 : (c.accepting r).reconnecting = { ((c.accepting r).add (.connectToHost r.url.host r.url.portOr80)) with hostHeaderValue := [], sock := { c.sock with state := .connecting, peer := (r.url.host, r.url.portOr80), rx := [] } } := by
    unfold Client.reconnecting
    rw [e1]
    simp [Client.add, Sock.connectToHost, h.state]
  have e3 : (c.accepting r).reconnecting.connectReply em =
      Client.deviceError em false { (c.accepting r).reconnecting with onConnect := c.onConnect.tail } := by
    have hc : (c.accepting r).reconnecting.onConnect = c.onConnect := by rw [e2, e1]; rfl
    have hs : (c.accepting r).reconnecting.sock.state = .connecting := by rw [e2]
    unfold Client.connectReply
    rw [hc]
    dsimp only
    rw [if_pos hs, hm]
    rfl
  rw [e3]
  unfold Client.deviceError
  rw [if_neg (by rw [e2, e1]; simp [Client.add])]
  refine ⟨_, rfl, ?_, rfl, ?_, ?_, ?_, ?_, rfl⟩
  · rw [e2, e1]
    simp only [Client.add]
    simp only [finishes_append]
    rfl
  · rw [e2, e1]; exact h.outside
  · rw [e2, e1]
    simp [Client.add, Sock.close, Sock.disconnectFromHost, h.unsent]
  · rw [e2, e1]; exact h.unsent
  · rw [e2, e1]; rfl

/-- With room for `f` nested emissions the application is told `f + 1` times that the request has failed, before the first call returns. -/
theorem retries (env : ClientEnv) (r : ClientRequest) : ∀ (f n : Nat) (c : Client), Retries c r n → f ≤ n → finishes (c.makeRequest (Client.emit env f) r).log = finishes c.log + f + 1
  | 0, n, c, h, _ => by
    obtain ⟨x, e, hx, -⟩ := request_fails (Client.emit env 0) h
    rw [e]
    show finishes (x.log ++ [x.shows .finished]) = _
    rw [finishes_append, hx]
    rfl
  | f + 1, 0, _, _, hn => absurd hn (by omega)
  | f + 1, n + 1, c, h, hn => by
    obtain ⟨x, e, hx, h1, h2, h3, h3', h4, h5⟩ := request_fails (Client.emit env (f + 1)) h
    rw [e]
    have hy : Retries { (x.add (x.shows .finished)) with onFinished := x.onFinished.tail } r n := by
      obtain ⟨m, hm⟩ := h.onConnect
      refine ⟨h1, h2, h3, h3', ?_, m, ?_⟩
      · show x.onFinished.tail = _
        rw [h4, h.onFinished]; rfl
      · show x.onConnect = _
        rw [h5, hm, show n + 1 + m + 1 = (n + m + 1) + 1 by omega]; rfl
    have e2 : Client.emit env (f + 1) .finished x = Client.makeRequest (Client.emit env f) r { (x.add (x.shows .finished)) with onFinished := x.onFinished.tail } := by
      show (((x.add (x.shows .finished)).react .finished).1).foldl (Client.call env (Client.emit env f)) ((x.add (x.shows .finished)).react .finished).2 = _
      have : ((x.add (x.shows .finished)).react .finished).1 = [.request r] := by
        show x.onFinished.headD [] = _
        rw [h4, h.onFinished]; rfl
      rw [this]
      rfl
    rw [e2, retries env r f n _ hy (by omega)]
    show finishes (x.log ++ [x.shows .finished]) + f + 1 = _
    rw [finishes_append, hx]
    show finishes c.log + 1 + f + 1 = _
    omega

/-- **C86 is false of the code if it is to mean a fixed depth**: for every `n` there is an application, which does nothing but make a request again when it has failed, on a machine whose connections fail at once,
that is told `n + 1` times that its request has failed before the first call returns, each time from within the slot that was told before. -/
theorem C86_violation (n : Nat) : ∃ (c : Client) (r : ClientRequest), c = Client.new [] [] (List.replicate n [.request r]) (List.replicate (n + 1) (.error false)) ∧
    ∀ env f, f ≤ n → finishes (c.run env f [.call (.request r)]).log = f + 1 := by
  refine ⟨_, { method := some b!"GET", url := { host := b!"localhost" } }, rfl, fun env f hf => ?_⟩
  have h := retries env { method := some b!"GET", url := { host := b!"localhost" } } f n (Client.new [] [] (List.replicate n [.request { method := some b!"GET", url := { host := b!"localhost" } }])
    (List.replicate (n + 1) (.error false))) ⟨rfl, rfl, rfl, rfl, rfl, 0, rfl⟩ hf
  exact h.trans (by simp [Client.new, finishes])

end Pillow.Props
