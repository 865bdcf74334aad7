import Verif.Lemmas.QtNumber
import Verif.Spec.Connection
set_option linter.unusedSimpArgs false
/-!
# What Qt's `toLongLong`/`toInt` read as a number
-/
namespace Pillow
open Spec

theorem hexVal_digit (b : Byte) : (match hexVal b with | some d => if d < 10 then some d else none | none => none) = if isDigit b then some (b.toNat - 48) else none := by
  revert b; apply byte_forall; decide +kernel

theorem readNat_fold (ds : Bytes) : ∀ acc, ds.foldl (fun acc c => do
    let a ← acc
    let d ← hexVal c
    if d < 10 then some (10 * a + d) else none) (some acc) = digitsVal acc ds := by
  have hnone : ∀ ds : Bytes, ds.foldl (fun acc c => do
    let a ← acc
    let d ← hexVal c
    if d < 10 then some (10 * a + d) else none) (none : Option Nat) = none := by
    intro ds; induction ds with
    | nil => rfl
    | cons b ds ih => exact ih
  induction ds with
  | nil => intro acc; rfl
  | cons b ds ih =>
    intro acc
    have h := hexVal_digit b
    rw [List.foldl_cons]
    simp only [digitsVal]
    cases hd : isDigit b with
    | false =>
      rw [hd] at h
      simp only [Bool.false_eq_true, if_false] at h ⊢
      have : (do
        let a ← some acc
        let d ← hexVal b
        if d < 10 then some (10 * a + d) else none : Option Nat) = none := by
        cases hv : hexVal b with
        | none => rfl
        | some d =>
          rw [hv] at h
          by_cases k : d < 10
          · simp [k] at h
          · simp [k]
      rw [this]; exact hnone ds
    | true =>
      rw [hd] at h
      simp only [if_true] at h ⊢
      have : (do
        let a ← some acc
        let d ← hexVal b
        if d < 10 then some (10 * a + d) else none : Option Nat) = some (10 * acc + (b.toNat - 48)) := by
        cases hv : hexVal b with
        | none => rw [hv] at h; cases h
        | some d =>
          rw [hv] at h
          by_cases k : d < 10
          · simp [k] at h ⊢; exact h
          · simp [k] at h
      rw [this]; exact ih _

theorem readNat_natVal (ds : Bytes) : readNat 10 ds = natVal ds := by
  unfold readNat natVal
  split
  · rfl
  · exact readNat_fold ds 0

theorem isSpaceC_iff (b : Byte) : isSpaceC b = true ↔ b ∈ ([9, 10, 11, 12, 13, 32] : Bytes) := by
  revert b; apply byte_forall; decide +kernel

theorem dropSpaces_split (s : Bytes) : ∃ blanks, s = blanks ++ dropSpaces s ∧ (∀ b ∈ blanks, isSpaceC b = true) := by
  induction s with
  | nil => exact ⟨[], rfl, by simp⟩
  | cons b s ih =>
    simp only [dropSpaces]
    cases h : isSpaceC b with
    | false => exact ⟨[], by simp, by simp⟩
    | true =>
      obtain ⟨bl, h1, h2⟩ := ih
      refine ⟨b :: bl, ?_, ?_⟩
      · simp only [if_true, List.cons_append]; rw [← h1]
      · intro x hx
        rcases List.mem_cons.1 hx with rfl | hx
        · exact h
        · exact h2 x hx

theorem dropSpaces_append (blanks s : Bytes) (h : ∀ b ∈ blanks, isSpaceC b = true) (hs : ∀ b t, s = b :: t → isSpaceC b = false) : dropSpaces (blanks ++ s) = s := by
  induction blanks with
  | nil =>
    cases s with
    | nil => rfl
    | cons b t => simp [dropSpaces, hs b t rfl]
  | cons b bl ih =>
    simp only [List.cons_append, dropSpaces, h b (by simp), if_true]
    exact ih fun x hx => h x (by simp [hx])

theorem cString_split (s : Bytes) : ∃ rest, s = cString s ++ rest ∧ (rest = [] ∨ ∃ t, rest = 0 :: t) := by
  induction s with
  | nil => exact ⟨[], rfl, .inl rfl⟩
  | cons b s ih =>
    simp only [cString]
    by_cases h : b = 0
    · subst h; exact ⟨0 :: s, rfl, .inr ⟨s, rfl⟩⟩
    · obtain ⟨r, h1, h2⟩ := ih
      refine ⟨r, ?_, h2⟩
      rw [if_neg (by simpa using h), List.cons_append, ← h1]

theorem cString_append (s rest : Bytes) (hs : ∀ b ∈ s, b ≠ 0) (hr : rest = [] ∨ ∃ t, rest = 0 :: t) : cString (s ++ rest) = s := by
  induction s with
  | nil =>
    rcases hr with rfl | ⟨t, rfl⟩ <;> rfl
  | cons b s ih =>
    simp only [List.cons_append, cString]
    rw [if_neg (by simpa using hs b (by simp)), ih fun x hx => hs x (by simp [hx])]

theorem digitsVal_all : ∀ (ds : Bytes) (acc m : Nat), digitsVal acc ds = some m → ∀ b ∈ ds, isDigit b = true
  | [], _, _, _ => by simp
  | b :: ds, acc, m, h => by
    simp only [digitsVal] at h
    split at h
    · rename_i hb
      intro x hx
      rcases List.mem_cons.1 hx with rfl | hx
      · exact hb
      · exact digitsVal_all ds _ m h x hx
    · cases h

theorem natVal_all {ds : Bytes} {m : Nat} (h : natVal ds = some m) : ds ≠ [] ∧ ∀ b ∈ ds, isDigit b = true := by
  unfold natVal at h
  split at h
  · cases h
  · rename_i hne; exact ⟨hne, digitsVal_all ds 0 m h⟩

/-- The signed part of `qtToLongLong`. -/
def signedVal (s : Bytes) : Option Int :=
  match s with
  | 45 :: ds => (natVal ds).map fun n => -(n : Int)
  | 43 :: ds => (natVal ds).map fun n => (n : Int)
  | ds => (natVal ds).map fun n => (n : Int)

theorem signedVal_iff (s : Bytes) (n : Int) : signedVal s = some n ↔
    ∃ sign ds m, s = sign ++ ds ∧ natVal ds = some m ∧ ((sign = [] ∨ sign = b!"+") ∧ n = m ∨ sign = b!"-" ∧ n = -(m : Int)) := by
  constructor
  · intro h
    unfold signedVal at h
    split at h
    · rename_i ds
      cases hd : natVal ds with
      | none => rw [hd] at h; cases h
      | some m => rw [hd] at h; simp at h; exact ⟨b!"-", ds, m, rfl, hd, .inr ⟨rfl, h.symm⟩⟩
    · rename_i ds
      cases hd : natVal ds with
      | none => rw [hd] at h; cases h
      | some m => rw [hd] at h; simp at h; exact ⟨b!"+", ds, m, rfl, hd, .inl ⟨.inr rfl, h.symm⟩⟩
    · cases hd : natVal s with
      | none => rw [hd] at h; cases h
      | some m => rw [hd] at h; simp at h; exact ⟨[], s, m, rfl, hd, .inl ⟨.inl rfl, h.symm⟩⟩
  · rintro ⟨sign, ds, m, rfl, hd, ⟨rfl | rfl, rfl⟩ | ⟨rfl, rfl⟩⟩
    · obtain ⟨h1, h2⟩ := natVal_all hd
      cases ds with
      | nil => exact absurd rfl h1
      | cons b ds =>
        obtain ⟨-, -, k3, k4⟩ := isDigit_not b (h2 b (by simp))
        simp only [List.nil_append]
        unfold signedVal
        split
        · rename_i e; cases e; exact absurd rfl k3
        · rename_i e; cases e; exact absurd rfl k4
        · rw [hd]; rfl
    · simp [signedVal, hd]
    · simp [signedVal, hd]

theorem saysNumber_iff (s : Bytes) (n : Int) : SaysNumber s n ↔ signedVal (dropSpaces (cString s)) = some n := by
  constructor
  · rintro ⟨blanks, sign, ds, rest, m, rfl, h1, h2, h3, h4⟩
    rw [readNat_natVal] at h3
    obtain ⟨k1, k2⟩ := natVal_all h3
    have hsign : ∀ b ∈ sign, b = 45 ∨ b = 43 := by
      rcases h4 with ⟨rfl | rfl, -⟩ | ⟨rfl, -⟩ <;> simp
    rw [cString_append (blanks ++ sign ++ ds) rest ?_ h2, List.append_assoc, dropSpaces_append blanks (sign ++ ds) (fun b hb => (isSpaceC_iff b).2 (h1 b hb)) ?_]
    · exact (signedVal_iff _ _).2 ⟨sign, ds, m, rfl, h3, h4⟩
    · intro b t e
      cases sign with
      | nil =>
        rw [List.nil_append] at e
        exact (isDigit_not b (k2 b (by rw [e]; simp))).2.1
      | cons a sign =>
        simp only [List.cons_append, List.cons.injEq] at e
        rw [← e.1]
        rcases hsign a (by simp) with rfl | rfl <;> decide
    · intro b hb
      simp only [List.mem_append] at hb
      rcases hb with (hb | hb) | hb
      · have := h1 b hb
        rintro rfl
        simp at this
      · rcases hsign b hb with rfl | rfl <;> decide
      · exact (isDigit_not b (k2 b hb)).1
  · intro h
    obtain ⟨rest, e1, h2⟩ := cString_split s
    obtain ⟨blanks, e2, h1⟩ := dropSpaces_split (cString s)
    obtain ⟨sign, ds, m, e3, h3, h4⟩ := (signedVal_iff _ _).1 h
    refine ⟨blanks, sign, ds, rest, m, ?_, fun b hb => (isSpaceC_iff b).1 (h1 b hb), h2, by rw [readNat_natVal]; exact h3, h4⟩
    rw [e3, ← List.append_assoc] at e2
    rw [← e2]; exact e1

theorem qtToLongLong_iff (s : Bytes) (n : Int) : qtToLongLong s = some n ↔ SaysNumber s n ∧ -(2 ^ 63 : Int) ≤ n ∧ n < 2 ^ 63 := by
  rw [saysNumber_iff]
  have e : qtToLongLong s = match signedVal (dropSpaces (cString s)) with
    | some n => if -(2 ^ 63 : Int) ≤ n ∧ n < 2 ^ 63 then some n else none
    | none => none := by unfold qtToLongLong signedVal; rfl
  rw [e]
  cases signedVal (dropSpaces (cString s)) with
  | none => simp
  | some m =>
    dsimp only
    by_cases h : -(2 ^ 63 : Int) ≤ m ∧ m < 2 ^ 63
    · rw [if_pos h]
      constructor
      · rintro ⟨⟩; exact ⟨rfl, h⟩
      · exact fun k => k.1
    · rw [if_neg h]
      constructor
      · rintro ⟨⟩
      · rintro ⟨⟨⟩, k⟩; exact absurd k h

theorem qtToInt_iff (s : Bytes) (n : Int) : qtToInt s = some n ↔ SaysNumber s n ∧ -(2 ^ 31 : Int) ≤ n ∧ n < 2 ^ 31 := by
  unfold qtToInt
  cases h : qtToLongLong s with
  | none =>
    constructor
    · rintro ⟨⟩
    · rintro ⟨k1, k2⟩
      have := (qtToLongLong_iff s n).2 ⟨k1, by omega, by omega⟩
      rw [h] at this; cases this
  | some m =>
    have hm := ((qtToLongLong_iff s m).1 h)
    dsimp only
    constructor
    · intro k
      split at k
      · cases k; exact ⟨hm.1, by assumption⟩
      · cases k
    · rintro ⟨k1, k2⟩
      have := (qtToLongLong_iff s n).2 ⟨k1, by omega, by omega⟩
      rw [h] at this; cases this
      rw [if_pos k2]

end Pillow
