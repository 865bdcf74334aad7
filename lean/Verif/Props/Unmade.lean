import Verif.Props.OnItsWay
import Verif.Lemmas.Posted
/-!
# C75: what becomes of every request
-/
namespace Pillow.Props
open Pillow Spec

/-- **C75**, exactly: in every run, whatever is unsent and whenever, a request whose response is awaited is on its way, or the socket was still closing when `connectToHost()` was called
(or has become unconnected since): then, as long as nothing is received and no error is reported, nothing happens. -/
theorem C75_exactly (env : ClientEnv) (fuel : Nat) (onH onC onF : List (List UserCall)) (onK : List SockReply) (inputs : List CInput) :
    let c := (Client.new onH onC onF onK).run env fuel inputs
    c.responsePending = true →
      (OnItsWay c ∧ (c.sock.state = .connecting ∨ c.sock.state = .connected)) ∨
      ((c.sock.state = .closing ∨ c.sock.state = .unconnected) ∧ ¬ OnItsWay c ∧
        (c.sock.rx = [] → ∀ later, (∀ i ∈ later, Idle i) → (c.run env fuel later).responsePending = true ∧ (c.run env fuel later).log = c.log)) := by
  intro c hp
  have h : CInv none c := CInv.run env fuel inputs (new_inv none onH onC onF onK trivial) (by rintro ⟨⟩)
  obtain ⟨x, hx, hx'⟩ := h.sends
  obtain ⟨w, rfl, hw⟩ := hx' hp
  have hwr : Posted c := run_posted env fuel inputs (c := Client.new onH onC onF onK) (by rintro ⟨⟩)
  have stuck : c.sock.state = .closing ∨ c.sock.state = .unconnected → ¬ OnItsWay c := by
    rintro hc ⟨w, -, -, ⟨h, -⟩ | ⟨h, -⟩⟩ <;> rw [h] at hc <;> simp at hc
  have hstuck := fun hs : c.sock.state = .closing ∨ c.sock.state = .unconnected =>
    (⟨hs, stuck hs, fun hr later hl => C75_hang env fuel later c hl hp hr hs⟩ : _ ∧ _ ∧ _)
  have peer : c.sock.state = .connecting ∨ c.sock.state = .connected → c.sock.peer = (c.request.url.host, portOf c.request.url) := by
    intro hs
    rw [← portOr80_eq]
    exact h.net hs
  cases hs : c.sock.state with
  | connecting => exact Or.inl ⟨⟨w, hx, peer (Or.inl hs), Or.inl ⟨hs, hw hs⟩⟩, Or.inl rfl⟩
  | connected =>
    refine Or.inl ⟨⟨w, hx, peer (Or.inr hs), Or.inr ⟨hs, ?_⟩⟩, Or.inr rfl⟩
    cases w with
    | true => rfl
    | false => exact absurd (hwr hp hs) (sends_not_written hx (Or.inr ⟨_, rfl⟩))
  | closing => exact Or.inr (hs ▸ hstuck (Or.inl hs))
  | unconnected => exact Or.inr (hs ▸ hstuck (Or.inr hs))

end Pillow.Props
