import Verif.Props.Client
import Verif.Lemmas.OnItsWay
/-!
# C75: requests are put on their way
-/
namespace Pillow.Props
open Pillow Spec

/-- **C75** (partial: for runs in which every request has left the socket before its response ends, see `C75_violation`).  Whatever the application does, in slots or not, and whatever the server sends:
whenever the client awaits a response, a connection with the server of the request is being opened, or there is one and the request has been written to it. -/
theorem C75_on_its_way_partial (env : ClientEnv) (fuel : Nat) (onH onC onF : List (List UserCall)) (onK : List SockReply) (inputs : List CInput)
    (ht : SentInTime env fuel (Client.new onH onC onF onK) inputs) :
    let c := (Client.new onH onC onF onK).run env fuel inputs
    c.responsePending = true → OnItsWay c := by
  intro c hp
  have h : CInv none c := CInv.run env fuel inputs (new_inv none onH onC onF onK trivial) (by rintro ⟨⟩)
  obtain ⟨x, hx, hx'⟩ := h.sends
  obtain ⟨w, rfl, hw⟩ := hx' hp
  have hway := run_ways env fuel inputs (c := Client.new onH onC onF onK) (by rintro ⟨⟩) ht hp
  refine ⟨w, hx, ?_, ?_⟩
  · rw [← portOr80_eq]
    exact h.net (hway.imp id (·.1))
  · rcases hway with hc | ⟨hc, hwr⟩
    · exact Or.inl ⟨hc, hw hc⟩
    · refine Or.inr ⟨hc, ?_⟩
      cases w with
      | true => rfl
      | false => exact absurd hwr (sends_not_written hx (Or.inr ⟨_, rfl⟩))

/-- **C75**: in every run, when the connection is made, the request is written to it, as a whole. -/
theorem C75_connected (env : ClientEnv) (fuel : Nat) (onH onC onF : List (List UserCall)) (onK : List SockReply) (inputs : List CInput) :
    let c := (Client.new onH onC onF onK).run env fuel inputs
    c.responsePending = true → c.sock.state = .connecting →
      ∃ data, Wire c.request data ∧ (c.step env fuel .connected).log = c.log ++ [.write (c.request.url.host, portOf c.request.url) data] := by
  intro c hp hc
  have h : CInv none c := CInv.run env fuel inputs (new_inv none onH onC onF onK trivial) (by rintro ⟨⟩)
  have h' : CInv none (c.step env fuel .connected) := h.step env fuel .connected (by rintro ⟨⟩)
  have e : c.step env fuel .connected = Client.sendRequest { c with sock := { c.sock with state := .connected } } := if_pos hc
  obtain ⟨k1, k2, k3⟩ := sendRequest_sock { c with sock := { c.sock with state := .connected } }
  obtain ⟨p, d, k3⟩ := k3 hp
  rw [e] at h' ⊢
  obtain ⟨x, hx, -⟩ := h'.sends
  rw [k3] at hx ⊢
  obtain ⟨y, hy, hy'⟩ := h.sends
  obtain ⟨w, rfl, hw⟩ := hy' hp
  have hw := hw hc
  subst hw
  generalize hl : c.log ++ [CEv.write p d] = l at hx
  cases hx with
  | nil => simp at hl
  | accepted r _ => have := (List.append_inj' hl rfl).2; simp at this
  | other ev h1 h2 _ => have := (List.append_inj' hl rfl).2; simp only [List.cons.injEq, and_true] at this; exact absurd this.symm (h2 p d)
  | @write l0 r data hs hw =>
    obtain ⟨e1, e2⟩ := List.append_inj' hl rfl
    simp only [List.cons.injEq, CEv.write.injEq, and_true] at e2
    subst e1
    have hr : r = c.request := by
      have := sends_unique hy _ hs
      simpa using this
    subst hr
    exact ⟨data, hw, by rw [← hl, e2.1, e2.2]⟩

/-- A response that comes before the request has been sent, and ends the connection. -/
def early413 : Bytes := b!"HTTP/1.1 413 Request Entity Too Large\r\nContent-Length: 0\r\nConnection: close\r\n\r\n"

/-- An upload, which is refused before all of it has been sent; the application then makes its next request, in the slot of `finished()` or later. -/
def refusedUpload : List CInput := [.call (.request { demoReq b!"POST" with data := b!"xxxxxxxx" }), .connected, .unsent true, .arrive early413, .readyRead]

/-- The hypotheses of `C75_on_its_way_partial` are met by runs that send, are answered, ask another server, and wait for it. -/
theorem C75_example :
    let inputs : List CInput := [.call (.request (demoReq b!"GET")), .unsent true, .connected, .unsent false, .arrive demoOk, .readyRead,
      .call (.request { method := some b!"GET", url := { host := b!"i", port := some 81, path := b!"/" } })]
    let c := (Client.new [] [] [] []).run demoEnv 1 inputs
    SentInTime demoEnv 1 (Client.new [] [] [] []) inputs ∧ c.responsePending = true ∧ c.sock.state = .connecting ∧ c.sock.peer = (b!"i", 81) := by
  refine ⟨⟨rfl, trivial, trivial, trivial, trivial, ?_, ?_, trivial⟩, ?_⟩
  · change Sock.unsent (Client.sock _) = false; decide +kernel
  · change Sock.unsent (Client.sock _) = false; decide +kernel
  · decide +kernel

/-- **C75 is false of the code**: the socket is still closing when the next request is made, so that `connectToHost()` is refused.  The request is neither sent, nor is a connection made, although the application
is told that it is under way; when the rest of the upload has been sent and the socket is disconnected, nothing happens. -/
theorem C75_violation :
    (let c := (Client.new [] [] [[.request (demoReq b!"GET")]] []).run demoEnv 1 refusedUpload;
      c.responsePending = true ∧ c.request = demoReq b!"GET" ∧ c.sock.state = .closing ∧ ¬ OnItsWay c) ∧
    (let c := (Client.new [] [] [] []).run demoEnv 1 (refusedUpload ++ [.call (.request (demoReq b!"GET"))]);
      c.responsePending = true ∧ c.request = demoReq b!"GET" ∧ c.sock.state = .closing ∧ ¬ OnItsWay c) ∧
    (let c := (Client.new [] [] [] []).run demoEnv 1 (refusedUpload ++ [.call (.request (demoReq b!"GET")), .unsent false, .disconnected]);
      c.responsePending = true ∧ c.request = demoReq b!"GET" ∧ c.sock.state = .unconnected ∧ ¬ OnItsWay c) := by
  have key : ∀ c : Client, c.sock.state = .closing ∨ c.sock.state = .unconnected → ¬ OnItsWay c := by
    rintro c hc ⟨w, -, -, ⟨h, -⟩ | ⟨h, -⟩⟩ <;> rw [h] at hc <;> simp at hc
  refine ⟨?_, ?_, ?_⟩
  · have h : (let c := (Client.new [] [] [[.request (demoReq b!"GET")]] []).run demoEnv 1 refusedUpload;
      c.responsePending = true ∧ c.request = demoReq b!"GET" ∧ c.sock.state = .closing) := by decide +kernel
    exact ⟨h.1, h.2.1, h.2.2, key _ (Or.inl h.2.2)⟩
  · have h : (let c := (Client.new [] [] [] []).run demoEnv 1 (refusedUpload ++ [.call (.request (demoReq b!"GET"))]);
      c.responsePending = true ∧ c.request = demoReq b!"GET" ∧ c.sock.state = .closing) := by decide +kernel
    exact ⟨h.1, h.2.1, h.2.2, key _ (Or.inl h.2.2)⟩
  · have h : (let c := (Client.new [] [] [] []).run demoEnv 1 (refusedUpload ++ [.call (.request (demoReq b!"GET")), .unsent false, .disconnected]);
      c.responsePending = true ∧ c.request = demoReq b!"GET" ∧ c.sock.state = .unconnected) := by decide +kernel
    exact ⟨h.1, h.2.1, h.2.2, key _ (Or.inr h.2.2)⟩

/-- Such a request waits until it is aborted: as long as nothing is received and no error is reported, nothing happens. -/
theorem C75_hang (env : ClientEnv) (fuel : Nat) : ∀ (inputs : List CInput) (c : Client), (∀ i ∈ inputs, Idle i) → c.responsePending = true → c.sock.rx = [] →
    c.sock.state = .closing ∨ c.sock.state = .unconnected → (c.run env fuel inputs).responsePending = true ∧ (c.run env fuel inputs).log = c.log
  | [], _, _, hp, _, _ => ⟨hp, rfl⟩
  | i :: is, c, hi, hp, hr, hs => by
    have hready : ∀ em, c.readyRead env em = c := by
      intro em
      unfold Client.readyRead
      rw [if_neg (by simp [hp]), if_pos (by rw [hr]; rfl)]
    have key : ((c.step env fuel i).responsePending = true ∧ (c.step env fuel i).sock.rx = [] ∧ ((c.step env fuel i).sock.state = .closing ∨ (c.step env fuel i).sock.state = .unconnected)) ∧
        (c.step env fuel i).log = c.log := by
      have h := hi i (by simp)
      cases i with
      | call u => exact h.elim
      | error rc => exact h.elim
      | arrive bs => exact h.elim
      | connected =>
        have e : c.step env fuel .connected = c := if_neg (by rintro e; rw [e] at hs; simp at hs)
        rw [e]; exact ⟨⟨hp, hr, hs⟩, rfl⟩
      | readyRead =>
        have e : c.step env fuel .readyRead = c := hready _
        rw [e]; exact ⟨⟨hp, hr, hs⟩, rfl⟩
      | disconnected => exact ⟨⟨hp, hr, Or.inr rfl⟩, rfl⟩
      | unsent b => exact ⟨⟨hp, hr, hs⟩, rfl⟩
      | timeout =>
        show (((if c.timers = 0 then c else { c with timers := c.timers - 1 }.readyRead env (Client.emit env fuel)) : Client).responsePending = true ∧ _) ∧ _
        by_cases ht : c.timers = 0
        · have e : c.step env fuel .timeout = c := if_pos ht
          rw [e, if_pos ht]; exact ⟨⟨hp, hr, hs⟩, rfl⟩
        · have e : c.step env fuel .timeout = { c with timers := c.timers - 1 } := by
            refine (if_neg ht).trans ?_
            unfold Client.readyRead
            rw [if_neg (by simp [hp]), if_pos (by simp [hr])]
          have e' : (if c.timers = 0 then c else { c with timers := c.timers - 1 }.readyRead env (Client.emit env fuel)) = { c with timers := c.timers - 1 } := e
          rw [e, e']; exact ⟨⟨hp, hr, hs⟩, rfl⟩
      | tick ms => exact ⟨⟨hp, hr, hs⟩, rfl⟩
    obtain ⟨⟨h1, h2, h3⟩, h4⟩ := key
    have ih := C75_hang env fuel is (c.step env fuel i) (fun j hj => hi j (by simp [hj])) h1 h2 h3
    exact ⟨ih.1, ih.2.trans h4⟩

end Pillow.Props
