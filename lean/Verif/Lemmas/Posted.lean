import Verif.Lemmas.OnItsWay
/-!
# What is awaited on a connection has been written to it
-/
namespace Pillow
open Spec

/-- If there is a connection, the request has been written. -/
def Posted (c : Client) : Prop := c.responsePending = true → c.sock.state = .connected → Written c.log

def EmPosted (em : Signal → Client → Client) : Prop := ∀ s c, Posted c → Posted (em s c)

theorem Posted.same {c c' : Client} (h : Posted c)
    (e2 : c'.responsePending = false ∨ (c'.responsePending = c.responsePending ∧ c'.sock.state = c.sock.state ∧ ∃ k, c'.log = c.log ++ k ∧ ∀ r, .accepted r ∉ k)) : Posted c' := by
  intro hp hc
  rcases e2 with e | ⟨k1, k2, k, k3, k4⟩
  · rw [e] at hp; cases hp
  · rw [k3]
    exact (h (k1 ▸ hp) (k2 ▸ hc)).append k4

theorem Posted.self {c c' : Client} (h : Posted c) (e2 : c'.responsePending = c.responsePending) (e3 : c'.sock.state = c.sock.state) (e4 : c'.log = c.log) : Posted c' :=
  h.same (Or.inr ⟨e2, e3, [], by rw [e4, List.append_nil], by simp⟩)

theorem Posted.one {c c' : Client} (h : Posted c) {e : CEv} (he : ∀ r, e ≠ .accepted r) (e2 : c'.responsePending = c.responsePending) (e3 : c'.sock.state = c.sock.state)
    (e4 : c'.log = c.log ++ [e]) : Posted c' :=
  h.same (Or.inr ⟨e2, e3, [e], e4, by intro r hr; exact he r (List.mem_singleton.1 hr).symm⟩)

theorem Posted.over {c : Client} (e2 : c.responsePending = false) : Posted c :=
  fun hp => by rw [e2] at hp; cases hp

theorem sendRequest_posted (c : Client) : Posted c.sendRequest :=
  fun hp _ => sendRequest_written ((sendRequest_sock c).2.1 ▸ hp)

section
variable {em : Signal → Client → Client} (he : EmPosted em)
include he

theorem deviceError_posted {c : Client} (h : Posted c) (rc : Bool) : Posted (c.deviceError em rc) := by
  unfold Client.deviceError
  split
  · exact h
  · exact he _ _ (Posted.over rfl)

theorem connectReply_posted {c : Client} (h : Posted c) : Posted (c.connectReply em) := by
  have h0 : Posted { c with onConnect := c.onConnect.tail } := h.self rfl rfl rfl
  unfold Client.connectReply
  dsimp only
  split
  · split
    · exact h0
    · exact sendRequest_posted _
    · exact deviceError_posted he h0 _
  · exact h0

omit he in
theorem connectToHost_not_connected (k : Sock) (a : Bytes) (n : Nat) (hk : k.state ≠ .connected) : (k.connectToHost a n).state ≠ .connected := by
  unfold Sock.connectToHost
  split
  · simp
  · exact hk

omit he in
theorem disconnectFromHost_not_connected (k : Sock) : k.disconnectFromHost.state ≠ .connected := by
  unfold Sock.disconnectFromHost
  split <;> simp

omit he in
theorem reconnecting_posted (c : Client) : Posted c.reconnecting := by
  have e : c.reconnecting.sock.state ≠ .connected := by
    unfold Client.reconnecting
    dsimp only
    split
    · exact connectToHost_not_connected _ _ _ (disconnectFromHost_not_connected _)
    · rename_i hu
      have hu : c.sock.state = .unconnected := by simpa using hu
      exact connectToHost_not_connected _ _ _ (by rw [hu]; simp)
  exact fun _ hc => absurd hc e

theorem accept_posted (c : Client) (r : ClientRequest) : Posted (c.accept em r) := by
  rw [accept_eq]
  split
  · exact sendRequest_posted _
  · exact connectReply_posted he (reconnecting_posted _)

theorem makeRequest_posted {c : Client} (h : Posted c) (r : ClientRequest) : Posted (c.makeRequest em r) := by
  unfold Client.makeRequest
  split
  · exact h.one (e := .refused r) (by simp) rfl rfl rfl
  · split
    · exact h.one (e := .deferred r) (by simp) rfl rfl rfl
    · exact accept_posted he c r

theorem abort_posted (c : Client) : Posted (c.abort em) := by
  unfold Client.abort
  dsimp only
  split
  · exact he _ _ (Posted.over rfl)
  · rename_i hp
    have hp : ¬ c.responsePending = true := hp
    exact Posted.over (show c.responsePending = false by simpa using hp)

theorem call_posted (env : ClientEnv) {c : Client} (h : Posted c) (u : UserCall) : Posted (c.call env em u) := by
  cases u with
  | request r => exact makeRequest_posted he h r
  | abort => exact abort_posted he c
  | consumeContent =>
    show Posted c.consumeContent
    unfold Client.consumeContent
    dsimp only
    split <;> exact h.one (e := .consumed c.d.content) (by simp) rfl rfl rfl
  | followRedirection =>
    show Posted (c.followRedirection env em)
    unfold Client.followRedirection
    dsimp only
    have h : Posted (c.add .followRedirection) := h.one (e := .followRedirection) (by simp) rfl rfl rfl
    split
    · exact h
    · exact makeRequest_posted he h _
  | setKeepAliveTimeout ms => exact h.self rfl rfl rfl
  | setReadBufferSize n => exact h.self rfl rfl rfl

theorem calls_posted (env : ClientEnv) : ∀ (l : List UserCall) {c : Client}, Posted c → Posted (l.foldl (Client.call env em) c)
  | [], _, h => h
  | u :: l, _, h => calls_posted env l (call_posted he env h u)

end

theorem emit_posted (env : ClientEnv) : ∀ n, EmPosted (Client.emit env n)
  | 0, s, c, h => h.one (shows_way c s) rfl rfl rfl
  | n + 1, s, c, h => by
    show Posted ((((c.add (c.shows s)).react s).1).foldl (Client.call env (Client.emit env n)) ((c.add (c.shows s)).react s).2)
    refine calls_posted (emit_posted env n) env _ ?_
    cases s <;> exact h.one (shows_way c _) rfl rfl rfl

section
variable {em : Signal → Client → Client} (he : EmPosted em) (hf : EmFramed em)
include he

theorem messageComplete_posted {c : Client} (h : Posted c) : Posted (c.messageComplete em) := by
  rw [messageComplete_eq]
  split
  · obtain ⟨p, e⟩ := clear_eq { c with contentDecoder := none }
    rw [e]
    exact h.self rfl rfl rfl
  · exact he _ _ (Posted.over (completing_facts c).2.2.1)

theorem clientCb_posted (env : ClientEnv) (k : Cb) (p : HParser) {c : Client} (h : Posted c) : Posted (clientCb env em k p c).2 := by
  cases k with
  | messageBegin => exact h.self rfl rfl rfl
  | field bs => exact h.self rfl rfl rfl
  | value bs => exact h.self rfl rfl rfl
  | headersComplete =>
    show Posted (Client.headersComplete env em { c with p := p, parsing := true, d := c.d.push })
    have h0 : Posted { c with p := p, parsing := true, d := c.d.push } := h.self rfl rfl rfl
    generalize ({ c with p := p, parsing := true, d := c.d.push } : Client) = c0 at h0 ⊢
    unfold Client.headersComplete
    split
    · exact h0
    · dsimp only
      have h1 := he .headers _ h0
      generalize em .headers c0 = c1 at h1 ⊢
      split
      · exact messageComplete_posted he (c := { c1 with p := c1.p.pause }) (h1.self rfl rfl rfl)
      · split
        · exact h1.self rfl rfl rfl
        · exact h1
  | body bs =>
    show Posted (Client.messageContent env em bs { c with p := p, parsing := true })
    rw [messageContent_eq]
    refine he _ _ ?_
    obtain ⟨ct, dec, e⟩ := storing_facts env bs { c with p := p, parsing := true }
    rw [e]
    exact h.self rfl rfl rfl
  | messageComplete =>
    have h1 : Posted (Client.messageComplete em { c with p := p, parsing := true }) :=
      messageComplete_posted he (c := { c with p := p, parsing := true }) (h.self rfl rfl rfl)
    exact h1.self rfl rfl rfl

include hf
theorem inject_posted (env : ClientEnv) {c : Client} (h : Posted c) (data : Bytes) : Posted (c.inject env em data).1 := by
  have h1 := (inv_execute (cb := clientCb env em) (Iok := Posted) (Iany := Posted) (fun _ h => h)
    (fun k p s hk hs => ⟨clientCb_posted he env k p hs, fun hn => ⟨by
      rcases (clientCb_tame env hf).tame k p s hk with e | e
      · exact (congrArg HParser.errno e).trans hk
      · exact absurd e.1 hn, clientCb_posted he env k p hs⟩⟩) (p := c.p) (s := { c with parsing := true }) (h.self rfl rfl rfl) data).1
  exact h1.self rfl rfl rfl

theorem receive_posted (env : ClientEnv) {c : Client} (h : Posted c) (data : Bytes) : Posted (c.receive env em data) := by
  unfold Client.receive
  dsimp only
  have h1 := inject_posted he hf env h data
  generalize (c.inject env em data).2 = n
  generalize (c.inject env em data).1 = c1 at h1 ⊢
  generalize hc2 : (if c1.responsePending then _ else _ : Client) = c2
  have h2 : Posted c2 := by
    subst hc2
    split
    · have h3 : Posted (if !c1.hasError && decide (n < data.length) then (c1.inject env em (data.drop n)).1 else c1 : Client) := by
        split
        · exact inject_posted he hf env h1 _
        · exact h1
      generalize (if !c1.hasError && decide (n < data.length) then (c1.inject env em (data.drop n)).1 else c1 : Client) = c3 at h3 ⊢
      split
      · exact he _ _ (Posted.over rfl)
      · exact h3
    · exact h1
  split
  · exact makeRequest_posted he (c := { c2 with pendingRequest := {} }) (h2.self rfl rfl rfl) _
  · exact h2

theorem readyRead_posted (env : ClientEnv) {c : Client} (h : Posted c) : Posted (c.readyRead env em) := by
  unfold Client.readyRead
  split
  · rename_i hp
    have hp : c.responsePending = false := by simpa using hp
    exact Posted.over hp
  · split
    · exact h
    · dsimp only
      generalize (if c.sock.readBufferSize > 0 then _ else _ : Nat) = n
      split
      · exact h
      · refine receive_posted he hf env ?_ _
        exact h.self rfl rfl rfl

end

theorem step_posted (env : ClientEnv) (fuel : Nat) {c : Client} (h : Posted c) (i : CInput) : Posted (c.step env fuel i) := by
  have he := emit_posted env fuel
  have hf := emit_framed env fuel
  cases i with
  | call u => exact call_posted he env h u
  | connected =>
    show Posted (if c.sock.state = .connecting then { c with sock := { c.sock with state := .connected } }.sendRequest else c)
    split
    · exact sendRequest_posted _
    · exact h
  | error rc => exact deviceError_posted he h rc
  | arrive bs =>
    show Posted (if c.sock.state = .connected ∨ c.sock.state = .closing then { c with sock := { c.sock with rx := c.sock.rx ++ bs } } else c)
    split <;> exact h
  | readyRead => exact readyRead_posted he hf env h
  | disconnected => exact fun _ hc => by cases (show SockState.unconnected = .connected from hc)
  | unsent u => exact h
  | timeout =>
    show Posted (if c.timers = 0 then c else { c with timers := c.timers - 1 }.readyRead env (Client.emit env fuel))
    split
    · exact h
    · exact readyRead_posted he hf env (c := { c with timers := c.timers - 1 }) h
  | tick ms => exact h

theorem run_posted (env : ClientEnv) (fuel : Nat) : ∀ (is : List CInput) {c : Client}, Posted c → Posted (c.run env fuel is)
  | [], _, h => h
  | i :: is, _, h => run_posted env fuel is (step_posted env fuel h i)

end Pillow
