import Verif.Lemmas.ConnZombie
/-!
# Concrete runs: evaluating a list of labels, with the side condition of the environment checked at each step
-/
namespace Pillow
open Spec

instance (s : Conf) (l : Label) : Decidable (Proper s l) := inferInstanceAs (Decidable (_ → _))
instance (s : Conf) (l : Label) : Decidable (Gentle s l) := inferInstanceAs (Decidable (_ ∧ _))

/-- Runs the labels, checking that each is allowed. -/
def Conf.runIf (allowed : Conf → Label → Prop) [∀ s l, Decidable (allowed s l)] (s : Conf) : List Label → Option Conf
  | [] => some s
  | l :: ls => if allowed s l then (s.step l).bind (·.runIf allowed ls) else none

theorem reach_runIf (allowed : Conf → Label → Prop) [∀ s l, Decidable (allowed s l)] : ∀ (ls : List Label) (s t : Conf),
    Reach allowed s → s.runIf allowed ls = some t → Reach allowed t
  | [], s, t, h, e => by simp [Conf.runIf] at e; subst e; exact h
  | l :: ls, s, t, h, e => by
    simp only [Conf.runIf] at e
    split at e
    · rename_i ha
      cases hs : s.step l with
      | none => rw [hs] at e; cases e
      | some s' => rw [hs] at e; exact reach_runIf allowed ls s' t (.step s s' l h ha hs) e
    · cases e

/-- A property of the configuration a run ends in. -/
def endsIn (allowed : Conf → Label → Prop) [∀ s l, Decidable (allowed s l)] (ls : List Label) (p : Conf → Bool) : Bool :=
  match Conf.runIf allowed {} ls with
  | some t => p t
  | none => false

theorem exists_of_endsIn {allowed : Conf → Label → Prop} [∀ s l, Decidable (allowed s l)] {ls : List Label}
    {p : Conf → Bool} (h : endsIn allowed ls p = true) : ∃ t, Reach allowed t ∧ p t = true := by
  unfold endsIn at h
  split at h
  · rename_i t ht
    exact ⟨t, reach_runIf allowed ls {} t .start ht, h⟩
  · cases h

/-- `n` silent steps in which the device sends nothing. -/
def taus (n : Nat) : List Label := List.replicate n (.tau 0)

end Pillow
