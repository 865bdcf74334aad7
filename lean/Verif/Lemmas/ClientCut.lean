import Verif.Spec.Cut
import Verif.Lemmas.ClientOpen
/-!
# Responses that break off
-/
namespace Pillow
open Spec

theorem prefix_before {α : Type} {a k l₁ l₂ : List α} {f : α} (h : a ++ k <+: a ++ l₁ ++ f :: l₂) (hf : f ∉ k) : k <+: l₁ := by
  obtain ⟨z, hz⟩ := h
  rw [List.append_assoc, List.append_assoc] at hz
  have hz := List.append_cancel_left hz
  rcases List.append_eq_append_iff.1 hz with ⟨x, h1, h2⟩ | ⟨x, h1, h2⟩
  · exact ⟨x, h1.symm⟩
  · cases x with
    | nil => exact ⟨[], by rw [h1]; simp⟩
    | cons y x =>
      simp only [List.cons_append, List.cons.injEq] at h2
      exact absurd (by rw [h1, h2.1]; simp) hf

theorem consume_log (c : Client) : c.consumeContent.log = c.log ++ [.consumed c.d.content] := by
  unfold Client.consumeContent
  dsimp only
  split <;> rfl

theorem signals_mem {l : List CEv} {x : CError} {st : Nat} {hs : Headers} {ct : Bytes} (h : .finished x st hs ct ∈ l) : .finished x st hs ct ∈ signals l := List.mem_filter.2 ⟨h, rfl⟩

/-- A response of which `more` is missing. -/
theorem mid_some {O : List Response} {env : ClientEnv} {fuel : Nat} {B : List CEv} {head : Bool} {m : Response} (hw : Fits head m) (hst : num m.head.status ≠ 100) {more : Bytes} {c : Client} {U : Bytes} {p : HParser} {t : QData}
    {is : List Bytes} {v : Bytes} (h : Mid env { before := B, unread := U, free := true, head := head } c p t) (hp : Pos env head m O p t is v) (he : c.sock.rx ++ more = is.flatten ++ v) (hl : is.length ≤ 1) :
    ∃ l all, c.log = B ++ l ∧ Shown env (head = true) m all ∧ SeenSome m l c.d.content all := by
  obtain ⟨l, h1, h2, -⟩ := h.told.log
  have h1 : c.log = B ++ l := h1
  have hnf : ∀ x st hs ct, .finished x st hs ct ∉ l := by
    intro x st hs ct hm
    have := signals_mem hm
    rw [h2] at this
    obtain ⟨a, b, e⟩ := h.told.fin.2 _ this
    cases e
  have ha := run_paced (fuel := fuel) (inputs := [.call .consumeContent, .arrive more]) hw hst (by simp [Steady]) h hp (by simpa [incoming] using he) hl
  obtain ⟨hr, -⟩ := along_rounds (fuel := fuel) hw hst _ ha (Nat.le_refl _)
  obtain ⟨l1, ct, l2, all, k1, k2, k3, k4, k5⟩ := hr
  have hpre : B ++ (l ++ [.consumed c.d.content]) <+: B ++ l1 ++ .finished .noError (num m.head.status) m.head.shown ct :: l2 := by
    rw [← k1, ← List.append_assoc, ← h1, ← consume_log c]
    exact (run_log env fuel [.arrive more] _).trans (run_log env fuel _ _)
  obtain ⟨z, hz⟩ := prefix_before hpre (by simp [hnf])
  refine ⟨l, all, h1, k5, ?_, ?_, ?_, ?_⟩
  · rw [← k2, ← hz, List.append_assoc, signals_append]
    exact List.prefix_append _ _
  · intro a b d e
    exact k4.1 a b (d ++ [.consumed c.d.content] ++ z) (by rw [← hz, e]; simp)
  · rw [← k3, ← hz, taken_append, taken_append]
    have : taken [.consumed c.d.content] = c.d.content := by simp [taken]
    rw [this, List.append_assoc]
    exact List.prefix_append _ _
  · intro a b d e
    exact k4.2.2 a b (d ++ [.consumed c.d.content] ++ z) (by rw [← hz, e]; simp)

theorem broken_mid {env : ClientEnv} {fuel : Nat} {c : Client} (ht : Top c) (hf : Fresh c) (h : Expecting c) {interims : List Response} {m : Response} {inputs : List CInput} {more : Bytes}
    (ha : BreaksOff c.request interims m inputs more) : (c.run env fuel inputs).responsePending = true ∧
      ∃ l all, (c.run env fuel inputs).log = c.log ++ l ∧ Shown env (IsHead c.request) m all ∧ SeenSome m l (c.run env fuel inputs).d.content all := by
  obtain ⟨hd, d1, d2⟩ := fits_of ha.answers
  obtain ⟨t, h1, h2⟩ := awaiting_mid env true hd h.pending h.connected (by simp) (mellow_true h.onHeaders) (mellow_true h.onContent) d1 ht hf
  have hp := await_pos (env := env) (O := interims) d2 ha.final h2 interims fun i hi => ⟨ha.continues i hi, hi⟩
  rcases run_paced_more (fuel := fuel) (more := more) d2 ha.final ha.steady h1 hp (by rw [hf.rx, List.nil_append]; exact ha.begins) (by rw [List.length_map]; exact ha.few) with ⟨-, k⟩ | ⟨U, p, t, is, v, k1, k2, k3, k4⟩
  · exact absurd k ha.missing
  · refine ⟨mid_pending k1, ?_⟩
    rw [← d1]
    exact mid_some (fuel := fuel) d2 ha.final k1 k2 k3 k4

end Pillow
