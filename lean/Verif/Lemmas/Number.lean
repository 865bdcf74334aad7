import Verif.Lemmas.Bytes
import Verif.Model.HttpHelpers
set_option linter.unusedSimpArgs false
namespace Pillow
open Spec

theorem reverseLoop_spec (pre : Bytes) : ∀ (a b m : Bytes), a.length = b.length →
    reverseLoop (pre ++ a ++ m ++ b) (pre.length + a.length) (pre.length + a.length + m.length - 1)
      = pre ++ a ++ m.reverse ++ b := by
  intro a b m hab
  induction hm : m.length using Nat.strongRecOn generalizing a b m with
  | _ n ih =>
    match m, hm with
    | [], hm => 
      rw [reverseLoop]; simp at hm; subst hm; simp
      intro h; omega
    | [x], hm =>
      rw [reverseLoop]; simp at hm; subst hm; simp
    | x :: y :: r, hm =>
      obtain ⟨z, r', hr⟩ : ∃ z r', y :: r = r' ++ [z] := by
        exact ⟨(y :: r).getLast (by simp), (y :: r).dropLast, (List.dropLast_concat_getLast (by simp)).symm⟩
      rw [hr] at hm ⊢
      simp at hm
      rw [reverseLoop]
      rw [if_pos (by omega)]
      have hlen : n = r'.length + 2 := by omega
      subst hlen
      have hx : (pre ++ a ++ x :: (r' ++ [z]) ++ b)[pre.length + a.length]! = x := by
        simp [List.getElem!_eq_getElem?_getD, List.getElem?_append_right]
      have hz : (pre ++ a ++ x :: (r' ++ [z]) ++ b)[pre.length + a.length + (r'.length + 2) - 1]! = z := by
        have : pre ++ a ++ x :: (r' ++ [z]) ++ b = (pre ++ a ++ x :: r') ++ (z :: b) := by simp
        rw [this, List.getElem!_eq_getElem?_getD, List.getElem?_append_right (by simp; omega)]
        simp
        rw [show pre.length + a.length + (r'.length + 1) - (pre.length + (a.length + (r'.length + 1))) = 0 by omega]
        simp
      rw [hx, hz]
      have e1 : (pre ++ a ++ x :: (r' ++ [z]) ++ b).set (pre.length + a.length) z
          = (pre ++ a ++ z :: r') ++ (z :: b) := by
        rw [show pre ++ a ++ x :: (r' ++ [z]) ++ b = (pre ++ a) ++ (x :: (r' ++ z :: b)) by simp]
        rw [List.set_append_right _ _ (by simp)]
        simp
      rw [e1, List.set_append_right _ _ (by simp; omega)]
      rw [show pre.length + a.length + (r'.length + 2) - 1 - (pre ++ a ++ z :: r').length = 0 by simp; omega]
      have := ih r'.length (by omega) (a ++ [z]) (x :: b) r' (by simp [hab]) rfl
      simp only [List.set_cons_zero]
      rw [show pre ++ a ++ z :: r' ++ x :: b = pre ++ (a ++ [z]) ++ r' ++ (x :: b) by simp]
      rw [show pre.length + a.length + 1 = pre.length + (a ++ [z]).length by simp; omega,
          show pre.length + a.length + (r'.length + 2) - 1 - 1 = pre.length + (a ++ [z]).length + r'.length - 1 by simp; omega]
      rw [this]
      simp

theorem reverseLoop_eq (pre m : Bytes) :
    reverseLoop (pre ++ m) pre.length ((pre ++ m).length - 1) = pre ++ m.reverse := by
  have := reverseLoop_spec pre [] [] m rfl
  simpa using this

/-- The digits most significant first. -/
def digits (base n : Nat) : Bytes := (digitsRev base n).reverse

theorem digits_lt {base n : Nat} (h : n < base) : digits base n = [digitChar n] := by
  unfold digits; rw [digitsRev]; simp [h, Nat.mod_eq_of_lt h]

theorem digits_ge {base n : Nat} (hb : 1 < base) (h : base ≤ n) :
    digits base n = digits base (n / base) ++ [digitChar (n % base)] := by
  unfold digits; rw [digitsRev, dif_neg (by omega)]; simp

theorem digits_ind {P : Nat → Prop} (base : Nat) (hb : 1 < base) (h0 : ∀ n, n < base → P n)
    (h1 : ∀ n, base ≤ n → P (n / base) → P n) : ∀ n, P n := by
  intro n
  induction n using Nat.strongRecOn with
  | _ n ih =>
    by_cases h : n < base
    · exact h0 n h
    · exact h1 n (by omega) (ih _ (Nat.div_lt_self (by omega) hb))

theorem digitChar_hexVal : ∀ d, d < 16 → hexVal (digitChar d) = some d := by decide

theorem digitChar_ne_zero : ∀ d, d < 16 → 0 < d → digitChar d ≠ 48 := by decide

theorem digitChar_ne_minus : ∀ d, d < 16 → digitChar d ≠ 45 := by decide

theorem digits_ne_nil (base n : Nat) : digits base n ≠ [] := by
  unfold digits; rw [digitsRev]; split <;> simp

theorem readNat_digits (base : Nat) (hb : 1 < base) (hb2 : base ≤ 16) : ∀ n, readNat base (digits base n) = some n := by
  intro n
  rw [readNat, if_neg (digits_ne_nil _ _)]
  induction n using digits_ind base hb with
  | h0 n hn =>
    simp [digits_lt hn, digitChar_hexVal n (by omega), hn]
  | h1 n hn ih =>
    rw [digits_ge hb hn, List.foldl_append, ih]
    have : n % base < base := Nat.mod_lt _ (by omega)
    simp [digitChar_hexVal (n % base) (by omega), this]
    exact Nat.div_add_mod n base

theorem digits_head (base : Nat) (hb : 1 < base) (hb2 : base ≤ 16) : ∀ n, 0 < n →
    ∃ d r, digits base n = digitChar d :: r ∧ 0 < d ∧ d < 16 := by
  intro n
  induction n using digits_ind base hb with
  | h0 n hn => intro h0; exact ⟨n, [], digits_lt hn, h0, by omega⟩
  | h1 n hn ih =>
    intro _
    obtain ⟨d, r, h, h1, h2⟩ := ih (Nat.div_pos hn (by omega))
    exact ⟨d, r ++ [digitChar (n % base)], by rw [digits_ge hb hn, h]; rfl, h1, h2⟩

/-- Canonical rendering of an integer, as the model computes it. -/
def renderInt (base : Nat) (n : Int) : Bytes :=
  if n < 0 then 45 :: digits base n.natAbs else digits base n.natAbs

theorem appendNumber_eq (bits base : Nat) (t : Bytes) (n : Int) (h : n ≠ -(2 ^ (bits - 1) : Int)) :
    appendNumber bits base t n = some (t ++ renderInt base n) := by
  unfold appendNumber renderInt
  simp only [if_neg h]
  congr 1
  split
  · rw [List.append_assoc, reverseLoop_eq]; simp [digits]
  · rw [reverseLoop_eq]; simp [digits]

theorem canonical_digits (base : Nat) (hb : 1 < base) (hb2 : base ≤ 16) (n : Nat) : Canonical (digits base n) := by
  by_cases h : n = 0
  · subst h; rw [digits_lt (by omega)]; simp [digitChar, Canonical]
  · obtain ⟨d, r, h, h1, h2⟩ := digits_head base hb hb2 n (by omega)
    have a := digitChar_ne_zero d h2 h1
    have b := digitChar_ne_minus d h2
    rw [h]
    unfold Canonical
    split <;> simp_all

theorem readInt_renderInt (base : Nat) (hb : 1 < base) (hb2 : base ≤ 16) (n : Int) :
    readInt base (renderInt base n) = some n ∧ Canonical (renderInt base n) := by
  unfold renderInt
  split
  · rename_i hn
    obtain ⟨d, r, h, h1, h2⟩ := digits_head base hb hb2 n.natAbs (by omega)
    refine ⟨by simp [readInt, readNat_digits base hb hb2]; omega, ?_⟩
    have a := digitChar_ne_zero d h2 h1
    rw [h]; unfold Canonical; split <;> simp_all
  · refine ⟨?_, canonical_digits base hb hb2 _⟩
    have hh : ∃ d r, digits base n.natAbs = digitChar d :: r ∧ d < 16 := by
      by_cases h : n.natAbs = 0
      · exact ⟨0, [], by rw [h, digits_lt (by omega)], by omega⟩
      · obtain ⟨d, r, h, _, h2⟩ := digits_head base hb hb2 n.natAbs (by omega)
        exact ⟨d, r, h, h2⟩
    obtain ⟨d, r, h, h2⟩ := hh
    have b := digitChar_ne_minus d h2
    have := readNat_digits base hb hb2 n.natAbs
    rw [h] at this ⊢
    unfold readInt
    split
    · simp_all
    · rw [this]; simp; omega

end Pillow
