import Verif.Model.ConnPure
import Verif.Lemmas.Number
set_option linter.unusedSimpArgs false
/-!
# Reading back decimal numbers with Qt's `toLongLong`/`toInt`
-/
namespace Pillow

theorem digitsVal_snoc : ∀ (l : Bytes) (acc : Nat) (b : Byte), digitsVal acc (l ++ [b]) =
    (digitsVal acc l).bind fun v => if isDigit b then some (10 * v + (b.toNat - 48)) else none
  | [], acc, b => by simp [digitsVal]
  | c :: l, acc, b => by
    simp only [List.cons_append, digitsVal]
    split
    · exact digitsVal_snoc l _ b
    · rfl

theorem digitChar_isDigit : ∀ d, d < 10 → isDigit (digitChar d) = true ∧ (digitChar d).toNat - 48 = d := by decide

theorem digits_isDigit (n : Nat) : ∀ b ∈ digits 10 n, isDigit b = true := by
  induction n using digits_ind 10 (by omega) with
  | h0 n hn => intro b hb; rw [digits_lt hn] at hb; simp at hb; subst hb; exact (digitChar_isDigit n hn).1
  | h1 n hn ih =>
    intro b hb
    rw [digits_ge (by omega) hn, List.mem_append] at hb
    rcases hb with hb | hb
    · exact ih b hb
    · simp at hb; subst hb; exact (digitChar_isDigit _ (Nat.mod_lt _ (by omega))).1

theorem digitsVal_digits (n : Nat) : digitsVal 0 (digits 10 n) = some n := by
  induction n using digits_ind 10 (by omega) with
  | h0 n hn =>
    obtain ⟨h1, h2⟩ := digitChar_isDigit n hn
    simp [digits_lt hn, digitsVal, h1, h2]
  | h1 n hn ih =>
    obtain ⟨h1, h2⟩ := digitChar_isDigit (n % 10) (Nat.mod_lt _ (by omega))
    rw [digits_ge (by omega) hn, digitsVal_snoc, ih]
    simp only [Option.bind_some, h1, h2, if_true]
    congr 1
    exact Nat.div_add_mod n 10

theorem natVal_digits (n : Nat) : natVal (digits 10 n) = some n := by
  rw [natVal, if_neg (digits_ne_nil _ _), digitsVal_digits]

theorem isDigit_not : ∀ b : Byte, isDigit b = true → b ≠ 0 ∧ isSpaceC b = false ∧ b ≠ 45 ∧ b ≠ 43 := by
  intro b h
  simp only [isDigit, Bool.and_eq_true, decide_eq_true_eq, UInt8.le_iff_toNat_le] at h
  have h1 : 48 ≤ b.toNat := h.1
  refine ⟨?_, ?_, ?_, ?_⟩
  · rintro rfl; simp at h1
  · simp only [isSpaceC, Bool.or_eq_false_iff, Bool.and_eq_false_iff, decide_eq_false_iff_not, UInt8.le_iff_toNat_le, beq_eq_false_iff_ne]
    refine ⟨?_, .inr ?_⟩
    · rintro rfl; simp at h1
    · show ¬ b.toNat ≤ 13; omega
  · rintro rfl; simp at h1
  · rintro rfl; simp at h1

theorem cString_id : ∀ (s : Bytes), (∀ b ∈ s, b ≠ 0) → cString s = s
  | [], _ => rfl
  | b :: s, h => by
    simp only [cString]
    rw [if_neg (by simpa using h b (by simp)), cString_id s fun b hb => h b (by simp [hb])]

theorem qtToLongLong_digits (n : Nat) (h : n < 2 ^ 63) : qtToLongLong (digits 10 n) = some (n : Int) := by
  have h1 := digits_isDigit n
  have h2 := natVal_digits n
  cases hd : digits 10 n with
  | nil => exact absurd hd (digits_ne_nil _ _)
  | cons b l =>
    rw [hd] at h1 h2
    obtain ⟨-, k2, k3, k4⟩ := isDigit_not b (h1 b (by simp))
    unfold qtToLongLong
    rw [cString_id _ fun b hb => (isDigit_not b (h1 b hb)).1]
    simp only [dropSpaces, k2]
    simp only [Bool.false_eq_true, if_false]
    split
    · rename_i m hm
      have : m = n := by
        split at hm
        · rename_i e; cases e; exact absurd rfl k3
        · rename_i e; cases e; exact absurd rfl k4
        · rw [h2] at hm; simpa using hm.symm
      subst this
      rw [if_pos ⟨by omega, by omega⟩]
    · rename_i hm
      split at hm
      · rename_i e; cases e; exact absurd rfl k3
      · rename_i e; cases e; exact absurd rfl k4
      · rw [h2] at hm; simp at hm

theorem qtToInt_digits (n : Nat) (h : n < 2 ^ 31) : qtToInt (digits 10 n) = some (n : Int) := by
  unfold qtToInt
  rw [qtToLongLong_digits n (by omega)]
  simp only
  rw [if_pos ⟨by omega, by omega⟩]

end Pillow
