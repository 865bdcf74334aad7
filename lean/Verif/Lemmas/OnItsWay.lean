import Verif.Lemmas.ClientLog
import Verif.Spec.OnItsWay
/-!
# Requests are put on their way
-/
namespace Pillow
open Spec

/-- Something has been written since the last request was accepted. -/
def Written (log : List CEv) : Prop := ∃ l₁ p d l₂, log = l₁ ++ .write p d :: l₂ ∧ ∀ r, .accepted r ∉ l₂

theorem Written.append {l : List CEv} (h : Written l) {k : List CEv} (hk : ∀ r, .accepted r ∉ k) : Written (l ++ k) := by
  obtain ⟨l1, p, d, l2, rfl, h2⟩ := h
  refine ⟨l1, p, d, l2 ++ k, by simp, fun r hr => ?_⟩
  rcases List.mem_append.1 hr with h | h
  · exact h2 r h
  · exact hk r h

theorem sends_not_written {l : List CEv} {x : Option (ClientRequest × Bool)} (h : Sends l x) : (x = none ∨ ∃ r, x = some (r, false)) → ¬ Written l := by
  induction h with
  | nil => rintro - ⟨l1, p, d, l2, e, -⟩; simp at e
  | @accepted l0 x r h ih =>
    rintro - ⟨l1, p, d, l2, e, h2⟩
    rcases List.eq_nil_or_concat l2 with rfl | ⟨l3, y, rfl⟩
    · have := (List.append_inj' e rfl).2; simp at this
    · have e' : l0 ++ [CEv.accepted r] = (l1 ++ .write p d :: l3) ++ [y] := by rw [e]; simp
      have := (List.append_inj' e' rfl).2
      simp only [List.cons.injEq, and_true] at this
      exact h2 r (by rw [← this]; simp)
  | write r data h hw ih => rintro (h | ⟨r', h⟩) <;> cases h
  | @other l0 x e h1 h2 h ih =>
    rintro hx ⟨l1, p, d, l2, e', h3⟩
    rcases List.eq_nil_or_concat l2 with rfl | ⟨l3, y, rfl⟩
    · have := (List.append_inj' e' rfl).2
      simp only [List.cons.injEq, and_true] at this
      exact h2 p d this
    · have e'' : l0 ++ [e] = (l1 ++ .write p d :: l3) ++ [y] := by rw [e']; simp
      refine ih hx ⟨l1, p, d, l3, (List.append_inj' e'' rfl).1, fun r hr => h3 r (by simp [hr])⟩

theorem sends_snoc {l : List CEv} {e : CEv} {y : Option (ClientRequest × Bool)} (h : Sends (l ++ [e]) y) :
    ∃ x, Sends l x ∧ ((∃ r, e = .accepted r ∧ y = some (r, false)) ∨ (∃ r p d, e = .write p d ∧ y = some (r, true) ∧ x = some (r, false)) ∨
      ((∀ r, e ≠ .accepted r) ∧ (∀ p d, e ≠ .write p d) ∧ y = x)) := by
  generalize hl : l ++ [e] = k at h
  cases h with
  | nil => simp at hl
  | accepted r h =>
    obtain ⟨rfl, e2⟩ := List.append_inj' hl rfl
    exact ⟨_, h, Or.inl ⟨r, by simpa using e2, rfl⟩⟩
  | write r data h hw =>
    obtain ⟨rfl, e2⟩ := List.append_inj' hl rfl
    exact ⟨_, h, Or.inr (Or.inl ⟨r, _, _, by simpa using e2, rfl, rfl⟩)⟩
  | other ev h1 h2 h =>
    obtain ⟨rfl, e2⟩ := List.append_inj' hl rfl
    have e2 : e = ev := by simpa using e2
    subst e2
    exact ⟨_, h, Or.inr (Or.inr ⟨h1, h2, rfl⟩)⟩

theorem sends_unique {l : List CEv} {x : Option (ClientRequest × Bool)} (h : Sends l x) : ∀ y, Sends l y → y = x := by
  induction h with
  | nil =>
    intro y hy
    generalize hl : ([] : List CEv) = k at hy
    cases hy with
    | nil => rfl
    | accepted => simp at hl
    | write => simp at hl
    | other => simp at hl
  | accepted r h ih =>
    intro y hy
    obtain ⟨z, -, h2⟩ := sends_snoc hy
    rcases h2 with ⟨r', e, rfl⟩ | ⟨r', p, d, e, -⟩ | ⟨h3, -⟩
    · cases e; rfl
    · cases e
    · exact absurd rfl (h3 r)
  | write r data h hw ih =>
    intro y hy
    obtain ⟨z, h1, h2⟩ := sends_snoc hy
    rcases h2 with ⟨r', e, rfl⟩ | ⟨r', p, d, e, rfl, rfl⟩ | ⟨-, h3, -⟩
    · cases e
    · have := ih _ h1
      simp only [Option.some.injEq, Prod.mk.injEq, and_true] at this
      rw [this]
    · exact absurd rfl (h3 _ _)
  | other e h1 h2 h ih =>
    intro y hy
    obtain ⟨z, k1, k2⟩ := sends_snoc hy
    rcases k2 with ⟨r', e, rfl⟩ | ⟨r', p, d, e, rfl, rfl⟩ | ⟨-, -, rfl⟩
    · exact absurd e (h1 _)
    · exact absurd e (h2 _ _)
    · exact ih _ k1

/-- Nothing is left unsent, and the request is on its way. -/
structure Way (c : Client) : Prop where
  sent : c.sock.unsent = false
  way : c.responsePending = true → c.sock.state = .connecting ∨ (c.sock.state = .connected ∧ Written c.log)

def EmWay (em : Signal → Client → Client) : Prop := ∀ s c, Way c → Way (em s c)

theorem Way.same {c c' : Client} (h : Way c) (e1 : c'.sock.unsent = c.sock.unsent)
    (e2 : c'.responsePending = false ∨ (c'.responsePending = c.responsePending ∧ c'.sock.state = c.sock.state ∧ ∃ k, c'.log = c.log ++ k ∧ ∀ r, .accepted r ∉ k)) : Way c' := by
  refine ⟨e1.trans h.sent, fun hp => ?_⟩
  rcases e2 with e | ⟨k1, k2, k, k3, k4⟩
  · rw [e] at hp; cases hp
  · rw [k2, k3]
    exact (h.way (k1 ▸ hp)).imp id fun ⟨a, b⟩ => ⟨a, b.append k4⟩

theorem Way.self {c c' : Client} (h : Way c) (e1 : c'.sock.unsent = c.sock.unsent) (e2 : c'.responsePending = c.responsePending) (e3 : c'.sock.state = c.sock.state) (e4 : c'.log = c.log) : Way c' :=
  h.same e1 (Or.inr ⟨e2, e3, [], by rw [e4, List.append_nil], by simp⟩)

theorem Way.one {c c' : Client} (h : Way c) {e : CEv} (he : ∀ r, e ≠ .accepted r) (e1 : c'.sock.unsent = c.sock.unsent) (e2 : c'.responsePending = c.responsePending) (e3 : c'.sock.state = c.sock.state)
    (e4 : c'.log = c.log ++ [e]) : Way c' :=
  h.same e1 (Or.inr ⟨e2, e3, [e], e4, by intro r hr; exact he r (List.mem_singleton.1 hr).symm⟩)

theorem Way.over {c c' : Client} (h : Way c) (e1 : c'.sock.unsent = c.sock.unsent ∨ c'.sock.unsent = false) (e2 : c'.responsePending = false) : Way c' :=
  ⟨e1.elim (fun e => e.trans h.sent) id, fun hp => by rw [e2] at hp; cases hp⟩

theorem sendRequest_sock (c : Client) : c.sendRequest.sock = c.sock ∧ c.sendRequest.responsePending = c.responsePending ∧
    (c.responsePending = true → ∃ p d, c.sendRequest.log = c.log ++ [.write p d]) := by
  unfold Client.sendRequest
  split
  · rename_i hp
    refine ⟨rfl, rfl, fun h => ?_⟩
    rw [h] at hp; cases hp
  · dsimp only
    split
    · exact ⟨rfl, rfl, fun _ => ⟨_, _, rfl⟩⟩
    · exact ⟨rfl, rfl, fun _ => ⟨_, _, rfl⟩⟩

theorem sendRequest_written {c : Client} (hp : c.responsePending = true) : Written c.sendRequest.log := by
  obtain ⟨p, d, e⟩ := (sendRequest_sock c).2.2 hp
  exact ⟨_, p, d, [], e, by simp⟩

/-- A request is written to an established connection. -/
theorem sendRequest_way {c : Client} (hs : c.sock.unsent = false) (hc : c.sock.state = .connected) : Way c.sendRequest := by
  obtain ⟨h1, h2, -⟩ := sendRequest_sock c
  refine ⟨by rw [h1]; exact hs, fun hp => Or.inr ⟨by rw [h1]; exact hc, sendRequest_written (h2 ▸ hp)⟩⟩

section
variable {em : Signal → Client → Client} (he : EmWay em)
include he

theorem deviceError_way {c : Client} (h : Way c) (rc : Bool) : Way (c.deviceError em rc) := by
  unfold Client.deviceError
  split
  · exact h
  · exact he _ _ (h.over (Or.inl rfl) rfl)

theorem connectReply_way {c : Client} (h : Way c) : Way (c.connectReply em) := by
  have h0 : Way { c with onConnect := c.onConnect.tail } := h.self rfl rfl rfl rfl
  unfold Client.connectReply
  dsimp only
  split
  · split
    · exact h0
    · exact sendRequest_way h.sent rfl
    · exact deviceError_way he h0 _
  · exact h0

omit he in
theorem reconnecting_way {c : Client} (hs : c.sock.unsent = false) : Way c.reconnecting := by
  have hd : ∀ k : Sock, k.unsent = false → k.disconnectFromHost.state = .unconnected := by
    intro k hk
    unfold Sock.disconnectFromHost
    rw [if_neg (by simp [hk])]
  unfold Client.reconnecting
  dsimp only
  split
  · have e : ∀ a n, (c.sock.disconnectFromHost.connectToHost a n).state = .connecting ∧ (c.sock.disconnectFromHost.connectToHost a n).unsent = false := by
      intro a n
      unfold Sock.connectToHost
      rw [if_pos (hd _ hs)]
      exact ⟨rfl, hs⟩
    exact ⟨(e _ _).2, fun _ => Or.inl (e _ _).1⟩
  · rename_i hu
    have hu : c.sock.state = .unconnected := by simpa using hu
    have e : ∀ a n, (c.sock.connectToHost a n).state = .connecting ∧ (c.sock.connectToHost a n).unsent = false := by
      intro a n
      unfold Sock.connectToHost
      rw [if_pos hu]
      exact ⟨rfl, hs⟩
    exact ⟨(e _ _).2, fun _ => Or.inl (e _ _).1⟩

theorem accept_way {c : Client} (h : Way c) (r : ClientRequest) : Way (c.accept em r) := by
  obtain ⟨h1, h2, h3, h4, -⟩ := accepting_facts c r
  rw [accept_eq]
  split
  · rename_i hc
    have hc : (c.accepting r).sock.state = .connected := ((reuses_iff c r).1 hc).1 |> fun e => h2 ▸ e
    exact sendRequest_way (h2 ▸ h.sent) hc
  · exact connectReply_way he (reconnecting_way (h2 ▸ h.sent))

theorem makeRequest_way {c : Client} (h : Way c) (r : ClientRequest) : Way (c.makeRequest em r) := by
  unfold Client.makeRequest
  split
  · exact h.one (e := .refused r) (by simp) rfl rfl rfl rfl
  · split
    · exact h.one (e := .deferred r) (by simp) rfl rfl rfl rfl
    · exact accept_way he h r

theorem abort_way (c : Client) : Way (c.abort em) := by
  have h0 : c.responsePending = false → Way ({ (c.add .abort) with sock := c.sock.abort } : Client) := fun hp =>
    ⟨rfl, fun hq => by have hq : c.responsePending = true := hq; rw [hp] at hq; cases hq⟩
  unfold Client.abort
  dsimp only
  split
  · exact he _ _ ⟨rfl, by rintro ⟨⟩⟩
  · rename_i hp
    have hp : ¬ c.responsePending = true := hp
    exact h0 (by simpa using hp)

theorem call_way (env : ClientEnv) {c : Client} (h : Way c) (u : UserCall) : Way (c.call env em u) := by
  cases u with
  | request r => exact makeRequest_way he h r
  | abort => exact abort_way he c
  | consumeContent =>
    show Way c.consumeContent
    unfold Client.consumeContent
    dsimp only
    split <;> exact h.one (e := .consumed c.d.content) (by simp) rfl rfl rfl rfl
  | followRedirection =>
    show Way (c.followRedirection env em)
    unfold Client.followRedirection
    dsimp only
    have h : Way (c.add .followRedirection) := h.one (e := .followRedirection) (by simp) rfl rfl rfl rfl
    split
    · exact h
    · exact makeRequest_way he h _
  | setKeepAliveTimeout ms => exact h.self rfl rfl rfl rfl
  | setReadBufferSize n => exact h.self rfl rfl rfl rfl

theorem calls_way (env : ClientEnv) : ∀ (l : List UserCall) {c : Client}, Way c → Way (l.foldl (Client.call env em) c)
  | [], _, h => h
  | u :: l, _, h => calls_way env l (call_way he env h u)

end

theorem shows_way (c : Client) (s : Signal) (r : ClientRequest) : c.shows s ≠ .accepted r := by cases s <;> simp [Client.shows]

theorem emit_way (env : ClientEnv) : ∀ n, EmWay (Client.emit env n)
  | 0, s, c, h => h.one (shows_way c s) rfl rfl rfl rfl
  | n + 1, s, c, h => by
    show Way ((((c.add (c.shows s)).react s).1).foldl (Client.call env (Client.emit env n)) ((c.add (c.shows s)).react s).2)
    refine calls_way (emit_way env n) env _ ?_
    cases s <;> exact h.one (shows_way c _) rfl rfl rfl rfl

section
variable {em : Signal → Client → Client} (he : EmWay em) (hf : EmFramed em)
include he

theorem messageComplete_way {c : Client} (h : Way c) : Way (c.messageComplete em) := by
  rw [messageComplete_eq]
  split
  · obtain ⟨p, e⟩ := clear_eq { c with contentDecoder := none }
    rw [e]
    exact h.self rfl rfl rfl rfl
  · refine he _ _ ?_
    refine h.over (Or.inl ?_) (completing_facts c).2.2.1
    unfold Client.completing
    dsimp only
    split
    · rfl
    · split <;> rfl

theorem clientCb_way (env : ClientEnv) (k : Cb) (p : HParser) {c : Client} (h : Way c) : Way (clientCb env em k p c).2 := by
  cases k with
  | messageBegin => exact h.self rfl rfl rfl rfl
  | field bs => exact h.self rfl rfl rfl rfl
  | value bs => exact h.self rfl rfl rfl rfl
  | headersComplete =>
    show Way (Client.headersComplete env em { c with p := p, parsing := true, d := c.d.push })
    have h0 : Way { c with p := p, parsing := true, d := c.d.push } := h.self rfl rfl rfl rfl
    generalize ({ c with p := p, parsing := true, d := c.d.push } : Client) = c0 at h0 ⊢
    unfold Client.headersComplete
    split
    · exact h0
    · dsimp only
      have h1 := he .headers _ h0
      generalize em .headers c0 = c1 at h1 ⊢
      split
      · exact messageComplete_way he (c := { c1 with p := c1.p.pause }) (h1.self rfl rfl rfl rfl)
      · split
        · exact h1.self rfl rfl rfl rfl
        · exact h1
  | body bs =>
    show Way (Client.messageContent env em bs { c with p := p, parsing := true })
    rw [messageContent_eq]
    refine he _ _ ?_
    obtain ⟨ct, dec, e⟩ := storing_facts env bs { c with p := p, parsing := true }
    rw [e]
    exact h.self rfl rfl rfl rfl
  | messageComplete =>
    have h1 : Way (Client.messageComplete em { c with p := p, parsing := true }) :=
      messageComplete_way he (c := { c with p := p, parsing := true }) (h.self rfl rfl rfl rfl)
    exact h1.self rfl rfl rfl rfl

include hf
theorem inject_way (env : ClientEnv) {c : Client} (h : Way c) (data : Bytes) : Way (c.inject env em data).1 := by
  have h1 := (inv_execute (cb := clientCb env em) (Iok := Way) (Iany := Way) (fun _ h => h)
    (fun k p s hk hs => ⟨clientCb_way he env k p hs, fun hn => ⟨by
      rcases (clientCb_tame env hf).tame k p s hk with e | e
      · exact (congrArg HParser.errno e).trans hk
      · exact absurd e.1 hn, clientCb_way he env k p hs⟩⟩) (p := c.p) (s := { c with parsing := true }) (h.self rfl rfl rfl rfl) data).1
  exact h1.self rfl rfl rfl rfl

theorem receive_way (env : ClientEnv) {c : Client} (h : Way c) (data : Bytes) : Way (c.receive env em data) := by
  unfold Client.receive
  dsimp only
  have h1 := inject_way he hf env h data
  generalize (c.inject env em data).2 = n
  generalize (c.inject env em data).1 = c1 at h1 ⊢
  generalize hc2 : (if c1.responsePending then _ else _ : Client) = c2
  have h2 : Way c2 := by
    subst hc2
    split
    · have h3 : Way (if !c1.hasError && decide (n < data.length) then (c1.inject env em (data.drop n)).1 else c1 : Client) := by
        split
        · exact inject_way he hf env h1 _
        · exact h1
      generalize (if !c1.hasError && decide (n < data.length) then (c1.inject env em (data.drop n)).1 else c1 : Client) = c3 at h3 ⊢
      split
      · exact he _ _ (h3.over (Or.inl rfl) rfl)
      · exact h3
    · exact h1
  split
  · exact makeRequest_way he (c := { c2 with pendingRequest := {} }) (h2.self rfl rfl rfl rfl) _
  · exact h2

theorem readyRead_way (env : ClientEnv) {c : Client} (h : Way c) : Way (c.readyRead env em) := by
  unfold Client.readyRead
  split
  · rename_i hp
    have hp : c.responsePending = false := by simpa using hp
    exact h.over (Or.inl rfl) hp
  · split
    · exact h
    · dsimp only
      generalize (if c.sock.readBufferSize > 0 then _ else _ : Nat) = n
      split
      · exact h
      · refine receive_way he hf env ?_ _
        exact h.self rfl rfl rfl rfl

end

/-- Without what is unsent, which changes between the inputs. -/
def Ways (c : Client) : Prop := c.responsePending = true → c.sock.state = .connecting ∨ (c.sock.state = .connected ∧ Written c.log)

theorem step_ways (env : ClientEnv) (fuel : Nat) {c : Client} (h : Ways c) {i : CInput} (hi : Seasonable c i) : Ways (c.step env fuel i) := by
  have he := emit_way env fuel
  have hf := emit_framed env fuel
  cases i with
  | call u =>
    cases u with
    | abort => exact (abort_way he c).way
    | request r => exact (call_way he env ⟨hi, h⟩ (.request r)).way
    | consumeContent => exact (call_way he env ⟨hi, h⟩ .consumeContent).way
    | followRedirection => exact (call_way he env ⟨hi, h⟩ .followRedirection).way
    | setKeepAliveTimeout ms => exact (call_way he env ⟨hi, h⟩ (.setKeepAliveTimeout ms)).way
    | setReadBufferSize n => exact (call_way he env ⟨hi, h⟩ (.setReadBufferSize n)).way
  | connected =>
    show Ways (if c.sock.state = .connecting then { c with sock := { c.sock with state := .connected } }.sendRequest else c)
    split
    · obtain ⟨h1, h2, -⟩ := sendRequest_sock { c with sock := { c.sock with state := .connected } }
      intro hp
      rw [h2] at hp
      exact Or.inr ⟨by rw [h1], sendRequest_written hp⟩
    · exact h
  | error rc => exact (deviceError_way he ⟨hi, h⟩ rc).way
  | arrive bs =>
    show Ways (if c.sock.state = .connected ∨ c.sock.state = .closing then { c with sock := { c.sock with rx := c.sock.rx ++ bs } } else c)
    split <;> exact h
  | readyRead => exact (readyRead_way he hf env ⟨hi, h⟩).way
  | disconnected =>
    intro hp
    have hp : c.responsePending = true := hp
    have hi : c.responsePending = false := hi
    rw [hi] at hp; cases hp
  | unsent u => exact h
  | timeout =>
    show Ways (if c.timers = 0 then c else { c with timers := c.timers - 1 }.readyRead env (Client.emit env fuel))
    split
    · exact h
    · exact (readyRead_way he hf env (c := { c with timers := c.timers - 1 }) ⟨hi, h⟩).way
  | tick ms => exact h

theorem run_ways (env : ClientEnv) (fuel : Nat) : ∀ (is : List CInput) {c : Client}, Ways c → SentInTime env fuel c is → Ways (c.run env fuel is)
  | [], _, h, _ => h
  | _ :: is, _, h, hi => run_ways env fuel is (step_ways env fuel h hi.1) hi.2

end Pillow
