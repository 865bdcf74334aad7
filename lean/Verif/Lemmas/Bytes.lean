import Verif.Model.HttpHeader
import Verif.Spec.Bytes
set_option linter.unusedSimpArgs false
namespace Pillow
open Spec

theorem charEqCI_iff : ∀ f s : Byte, charEqCI f s = true ↔ lower f = lower s := by
  intro f s
  have h1 := f.toNat_lt; have h2 := s.toNat_lt
  simp only [charEqCI, lower, Bool.or_eq_true, Bool.and_eq_true, beq_iff_eq, decide_eq_true_eq,
    UInt8.le_iff_toNat_le, ← UInt8.toNat_inj]
  split <;> split <;> simp [← UInt8.toNat_inj, UInt8.toNat_add, UInt8.le_iff_toNat_le] at * <;> omega

theorem lower_of_lowerTok (s : Byte) (h : ¬ (65 ≤ s ∧ s ≤ 90)) : lower s = s := by simp [lower, h]

theorem charEqCILower_iff (f s : Byte) (h : ¬ (65 ≤ s ∧ s ≤ 90)) :
    charEqCILower f s = true ↔ lower f = lower s := by
  rw [lower_of_lowerTok s h]
  have h1 := f.toNat_lt; have h2 := s.toNat_lt
  simp only [charEqCILower, lower, Bool.or_eq_true, Bool.and_eq_true, beq_iff_eq, decide_eq_true_eq,
    UInt8.le_iff_toNat_le, ← UInt8.toNat_inj] at *
  split <;> simp [← UInt8.toNat_inj, UInt8.toNat_add, UInt8.le_iff_toNat_le] at * <;> omega

theorem eqCILoop_iff (cmp : Byte → Byte → Bool) : ∀ a b : Bytes, a.length = b.length →
    (∀ f s, s ∈ b → (cmp f s = true ↔ lower f = lower s)) →
    (eqCILoop cmp a b = true ↔ a.map lower = b.map lower)
  | [], [], _, _ => by simp [eqCILoop]
  | f :: fs, s :: ss, hl, hc => by
    have := eqCILoop_iff cmp fs ss (by simpa using hl) (fun f s hs => hc f s (by simp [hs]))
    have h0 := hc f s (by simp)
    simp only [eqCILoop, List.map_cons, List.cons.injEq]
    cases h : cmp f s <;> simp_all
  | [], _ :: _, hl, _ => by simp at hl
  | _ :: _, [], hl, _ => by simp at hl

theorem asciiEqualsCI_iff (a b : Bytes) : asciiEqualsCI a b = true ↔ SameCI a b := by
  unfold asciiEqualsCI SameCI
  by_cases h : a.length = b.length
  · simp [h, eqCILoop_iff charEqCI a b h (fun f s _ => charEqCI_iff f s)]
  · simp [h]
    intro h'
    exact h (by simpa using congrArg List.length h')

theorem asciiEqualsCILower_iff (a tok : Bytes) (ht : ∀ b ∈ tok, ¬ (65 ≤ b ∧ b ≤ 90)) :
    asciiEqualsCILower a tok = true ↔ SameCI a tok := by
  unfold asciiEqualsCILower SameCI
  by_cases h : a.length = tok.length
  · simp [h, eqCILoop_iff charEqCILower a tok h (fun f s hs => charEqCILower_iff f s (ht s hs))]
  · simp [h]
    intro h'
    exact h (by simpa using congrArg List.length h')

/-! ### percent decoding -/

/-- Pure reading of the loop: what `percentDecodeInPlace` computes. -/
def pctDecodeList : Bytes → Bytes
  | [] => []
  | [a] => [a]
  | [a, b] => [a, b]
  | a :: b :: c :: rest =>
    if a == 37 then unhexPair b c :: pctDecodeList rest else a :: pctDecodeList (b :: c :: rest)

theorem pctDecodeList_cons_ne (a : Byte) (l : Bytes) (h : a ≠ 37) :
    pctDecodeList (a :: l) = a :: pctDecodeList l := by
  match l with
  | [] => simp [pctDecodeList]
  | [b] => simp [pctDecodeList]
  | b :: c :: r => simp [pctDecodeList, h]

theorem pctDecodeList_short (l : Bytes) (h : l.length ≤ 2) : pctDecodeList l = l := by
  match l, h with
  | [], _ => simp [pctDecodeList]
  | [a], _ => simp [pctDecodeList]
  | [a, b], _ => simp [pctDecodeList]
  | _ :: _ :: _ :: _, h => simp at h

theorem pctDecodeList_length_le (l : Bytes) : (pctDecodeList l).length ≤ l.length := by
  fun_induction pctDecodeList l <;> simp_all <;> omega

theorem drop_set_of_le {α} (l : List α) (i n : Nat) (a : α) (h : i < n) : (l.set i a).drop n = l.drop n := by
  rw [List.drop_set]; simp [h]

theorem take_succ_set {α} (l : List α) (i : Nat) (a : α) (h : i < l.length) :
    (l.set i a).take (i + 1) = l.take i ++ [a] := by
  apply List.ext_getElem
  · simp; omega
  · intro k h1 h2
    simp at h1 h2
    rw [List.getElem_take, List.getElem_set, List.getElem_append]
    by_cases hk : i = k
    · subst hk; simp; omega
    · rw [if_neg hk, dif_pos (by simp; omega)]; simp

/-- The invariant of the decoding loop, and its consequence at the end. -/
theorem pctLoop_spec (n : Nat) (s : PctState) (hl : s.buf.length = n) (hw : s.wr ≤ s.rd) (hr : s.rd ≤ n)
    (hs : s.size + s.rd = s.wr + n) :
    let r := pctLoop n s
    r.buf.length = n ∧ r.buf.take r.size = s.buf.take s.wr ++ pctDecodeList (s.buf.drop s.rd)
      ∧ r.size = s.wr + (pctDecodeList (s.buf.drop s.rd)).length ∧ r.wr = r.size ∧ r.wr ≤ r.rd ∧ r.rd = n := by
  rw [pctLoop]
  split
  · rename_i hlt
    have key : ∀ s', s' = pctStep n s → s'.buf.length = n ∧ s'.wr ≤ s'.rd ∧ s'.rd ≤ n ∧
        s'.size + s'.rd = s'.wr + n ∧ s'.buf.take s'.wr ++ pctDecodeList (s'.buf.drop s'.rd)
          = s.buf.take s.wr ++ pctDecodeList (s.buf.drop s.rd)
        ∧ s'.wr + (pctDecodeList (s'.buf.drop s'.rd)).length
          = s.wr + (pctDecodeList (s.buf.drop s.rd)).length := by
      intro s' hs'
      have hd : s.buf.drop s.rd = s.buf[s.rd]! :: s.buf.drop (s.rd + 1) := by
        rw [List.drop_eq_getElem_cons (by omega)]
        simp [List.getElem!_eq_getElem?_getD, show s.rd < s.buf.length by omega]
      unfold pctStep at hs'
      split at hs'
      · rename_i hc
        simp only [Bool.and_eq_true, beq_iff_eq, decide_eq_true_eq] at hc
        have hd2 : s.buf.drop (s.rd + 1) = s.buf[s.rd + 1]! :: s.buf[s.rd + 2]! :: s.buf.drop (s.rd + 3) := by
          rw [List.drop_eq_getElem_cons (by omega), List.drop_eq_getElem_cons (by omega)]
          simp [List.getElem!_eq_getElem?_getD, show s.rd + 1 < s.buf.length by omega,
            show s.rd + 2 < s.buf.length by omega]
        subst hs'
        simp only [List.length_set, hl, true_and]
        rw [hd, hd2, hc.1, take_succ_set _ _ _ (by omega), drop_set_of_le _ _ _ _ (by omega)]
        simp [pctDecodeList]
        omega
      · rename_i hc
        subst hs'
        simp only [Bool.and_eq_true, beq_iff_eq, decide_eq_true_eq, not_and] at hc
        simp only [List.length_set, hl, true_and]
        rw [hd, take_succ_set _ _ _ (by omega), drop_set_of_le _ _ _ _ (by omega)]
        have : pctDecodeList (s.buf[s.rd]! :: s.buf.drop (s.rd + 1))
            = s.buf[s.rd]! :: pctDecodeList (s.buf.drop (s.rd + 1)) := by
          by_cases h : s.buf[s.rd]! = 37
          · have := hc h
            have hl2 : (s.buf.drop (s.rd + 1)).length ≤ 1 := by simp; omega
            rw [pctDecodeList_short, pctDecodeList_short]
            · omega
            · simp only [List.length_cons]; omega
          · exact pctDecodeList_cons_ne _ _ h
        rw [this]
        simp
        omega
    obtain ⟨k1, k2, k3, k4, k5, k6⟩ := key _ rfl
    have ih := pctLoop_spec n (pctStep n s) k1 k2 k3 k4
    simp only at ih ⊢
    rw [k5, k6] at ih
    exact ih
  · rename_i hlt
    have : s.rd = n := by omega
    have hd : s.buf.drop s.rd = [] := by simp; omega
    simp [hd, pctDecodeList]
    refine ⟨hl, ?_, by omega, by omega, by omega, by omega⟩
    rw [show s.size = s.wr by omega]
termination_by n - s.rd
decreasing_by unfold pctStep; split <;> simp_all <;> omega

theorem percentDecode_eq (data : Bytes) : percentDecode data = pctDecodeList data := by
  have := pctLoop_spec data.length ⟨data, 0, 0, data.length⟩ rfl (by simp) (by simp) (by simp)
  simp only [List.take_zero, List.nil_append, List.drop_zero] at this
  simp [percentDecode, percentDecodeInPlace, this.2.1]

theorem unhex_of_hexVal : ∀ c : Byte, ∀ v, hexVal c = some v → (unhex c).toNat = v ∧ v < 16 := by
  have : ∀ b : BitVec 8, (hexVal ⟨b⟩).all (fun v => (unhex ⟨b⟩).toNat == v && decide (v < 16)) = true := by
    decide +kernel
  intro c v hv
  have := this c.toBitVec
  simp only [show (⟨c.toBitVec⟩ : UInt8) = c from rfl, hv, Option.all_some, Bool.and_eq_true, beq_iff_eq,
    decide_eq_true_eq] at this
  exact this

theorem unhexPair_of_hex (h l b : Byte) (hv lv : Nat) (h1 : hexVal h = some hv) (h2 : hexVal l = some lv)
    (hb : b.toNat = 16 * hv + lv) : unhexPair h l = b := by
  obtain ⟨a1, a2⟩ := unhex_of_hexVal h hv h1
  obtain ⟨c1, c2⟩ := unhex_of_hexVal l lv h2
  have : ∀ x y : BitVec 4, (((⟨x.setWidth 8⟩ : UInt8) <<< 4) ||| ⟨y.setWidth 8⟩).toNat = 16 * x.toNat + y.toNat := by
    decide +kernel
  unfold unhexPair
  have e1 : unhex h = ⟨(BitVec.ofNat 4 hv).setWidth 8⟩ := by
    apply UInt8.toNat_inj.mp; rw [a1]; show hv = (BitVec.setWidth 8 (BitVec.ofNat 4 hv)).toNat
    simp; omega
  have e2 : unhex l = ⟨(BitVec.ofNat 4 lv).setWidth 8⟩ := by
    apply UInt8.toNat_inj.mp; rw [c1]; show lv = (BitVec.setWidth 8 (BitVec.ofNat 4 lv)).toNat
    simp; omega
  apply UInt8.toNat_inj.mp
  rw [e1, e2, this, hb]
  simp; omega

theorem pctDecodeList_of_encodes {enc raw : Bytes} (h : PctEncodes enc raw) : pctDecodeList enc = raw := by
  induction h with
  | nil => rfl
  | plain b enc raw hb _ ih => rw [pctDecodeList_cons_ne _ _ hb, ih]
  | escaped h l b hv lv enc raw h1 h2 hb _ ih =>
    simp [pctDecodeList, ih, unhexPair_of_hex h l b hv lv h1 h2 hb]

end Pillow
