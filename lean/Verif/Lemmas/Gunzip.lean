import Verif.Spec.Gunzip
import Verif.Lemmas.ClientTold
/-!
# Compressed content
-/
namespace Pillow
open Spec

theorem prefix_antisymm {a b : Bytes} (h : a <+: b) (h' : b <+: a) : a = b := h.eq_of_length_le h'.length_le

section
variable {F : Format} {Z : Zlib} {At : Bytes → Bytes → Z.State → Prop} (h : Decodes F Z At) {w : Bytes} (hw : F.Whole w)
include h hw

theorem delivered_le {i o : Bytes} {s : Z.State} (ha : At i o s) (hi : i <+: w) : o.length ≤ (F.plain w).length :=
  Nat.le_trans (h.within ha hw hi).length_le (h.mono hw hi (List.prefix_refl _)).length_le

theorem loop_mid : ∀ (n : Nat) (s : Z.State) (i o data acc : Bytes), At i o s → i <+: w → data ≠ [] → (i ++ data <+: w ∨ w <+: i ++ data) → (F.plain w).length < n + o.length →
    ∃ i' s' x, Gunzip.loop Z n s false data acc = (s', false, acc ++ x) ∧ At i' (o ++ x) s' ∧ i' <+: w ∧ (i ++ data <+: w → i' = i ++ data) ∧ (w <+: i ++ data → i' = w) ∧
      ((F.plain i').length < o.length + inflateBuffer → o ++ x = F.plain i')
  | 0, s, i, o, data, acc, ha, hi, hd, hc, hn => by
    have := delivered_le h hw ha hi
    omega
  | n + 1, s, i, o, data, acc, ha, hi, hd, hc, hn => by
    have hcap : 0 < inflateBuffer := by decide
    unfold Gunzip.loop
    rw [if_neg (by simp)]
    dsimp only
    by_cases he : i = w
    · subst he
      obtain ⟨h1, h2, h3, h4⟩ := h.idle ha hw hd hcap
      rw [if_neg (by rw [h1]; simp), if_neg (by rw [h3]; rintro ⟨-, h⟩; rw [List.length_nil] at h; omega), h3]
      refine ⟨i, _, [], rfl, by rw [List.append_nil]; exact h4, List.prefix_refl _, fun hp => ?_, fun _ => rfl, fun _ => by rw [List.append_nil]; exact h.last ha hw⟩
      have := hp.length_le
      rw [List.length_append] at this
      exact absurd (List.eq_nil_of_length_eq_zero (by omega)) hd
    · obtain ⟨h1, h2, h3, h4, h5, h6, h7⟩ := h.step ha hw hi he hd hcap hc
      generalize Z.inflate s data inflateBuffer = r at h1 h2 h3 h4 h5 h6 h7
      rw [if_neg (by rw [h1]; simp)]
      have hcat : i ++ data.take r.taken ++ data.drop r.taken = i ++ data := by rw [List.append_assoc, List.take_append_drop]
      split
      · rename_i hg
        obtain ⟨i', s', x, k1, k2, k3, k4, k5, k6⟩ := loop_mid n r.state (i ++ data.take r.taken) (o ++ r.out) (data.drop r.taken) (acc ++ r.out) h5 h4 hg.1 (by rw [hcat]; exact hc)
          (by rw [List.length_append, hg.2]; omega)
        rw [hcat] at k4 k5
        refine ⟨i', s', r.out ++ x, by rw [k1, List.append_assoc], by rw [← List.append_assoc]; exact k2, k3, k4, k5, fun hl => ?_⟩
        have := (h.within k2 hw k3).length_le
        rw [List.length_append, List.length_append, hg.2] at this
        omega
      · rename_i hg
        refine ⟨i ++ data.take r.taken, _, r.out, rfl, h5, h4, ?_⟩
        have hall : r.out.length < inflateBuffer ∨ r.taken = data.length := by
          by_cases ho : r.out.length = inflateBuffer
          · right
            have : data.drop r.taken = [] := Decidable.byContradiction fun hx => hg ⟨hx, ho⟩
            rw [List.drop_eq_nil_iff] at this
            omega
          · left; omega
        have hfull : (F.plain (i ++ data.take r.taken)).length < o.length + inflateBuffer → o ++ r.out = F.plain (i ++ data.take r.taken) := by
          intro hl
          refine h7 ?_
          have := (h.within h5 hw h4).length_le
          rw [List.length_append] at this
          omega
        rcases (hall.elim h6 Or.inl : r.taken = data.length ∨ i ++ data.take r.taken = w) with ht | ht
        · rw [ht, List.take_length] at h4 hfull ⊢
          exact ⟨fun _ => rfl, fun hp => prefix_antisymm h4 hp, hfull⟩
        · refine ⟨fun hp => prefix_antisymm ⟨data.drop r.taken, hcat⟩ (ht ▸ hp), fun _ => ht, hfull⟩

end

theorem run_snoc (Z : Zlib) (fuel : Nat) (bs : List Bytes) (b : Bytes) : Gunzip.run Z fuel (bs ++ [b]) = ((Gunzip.run Z fuel bs).transform Z fuel b).1 := by
  unfold Gunzip.run
  rw [List.foldl_append]
  rfl

theorem gunzip_snoc (Z : Zlib) (fuel : Nat) (bs : List Bytes) (b : Bytes) : gunzip Z fuel (bs ++ [b]) = ((Gunzip.run Z fuel bs).transform Z fuel b).2 := by
  unfold gunzip
  rw [List.getLast?_append, List.dropLast_concat]
  rfl

theorem unzipped_nil (f : List Bytes → Bytes) : unzipped f [] = [] := rfl

/-- Induction on blocks that come one after the other. -/
theorem snoc_induction {P : List Bytes → Prop} (hn : P []) (hs : ∀ bs b, P bs → P (bs ++ [b])) (bs : List Bytes) : P bs := by
  have : ∀ l : List Bytes, P l.reverse := by
    intro l
    induction l with
    | nil => exact hn
    | cons a l ih => rw [List.reverse_cons]; exact hs _ _ ih
  have := this bs.reverse
  rwa [List.reverse_reverse] at this

section
variable {F : Format} {Z : Zlib} {At : Bytes → Bytes → Z.State → Prop} (h : Decodes F Z At) {w : Bytes} (hw : F.Whole w)
include h hw

theorem run_mid (fuel : Nat) (hf : (F.plain w).length < fuel) (blocks : List Bytes) : [] ∉ blocks → (blocks.flatten <+: w ∨ w <+: blocks.flatten) →
    ∃ i s, Gunzip.run Z fuel blocks = ⟨s, false⟩ ∧ At i (unzipped (gunzip Z fuel) blocks) s ∧ i <+: w ∧ (blocks.flatten <+: w → i = blocks.flatten) ∧ (w <+: blocks.flatten → i = w) ∧
      ((∀ a b c, blocks = a ++ b :: c → (a ++ [b]).flatten <+: w → (F.plain (a ++ [b]).flatten).length < (F.plain a.flatten).length + inflateBuffer) → blocks.flatten <+: w →
        unzipped (gunzip Z fuel) blocks = F.plain blocks.flatten) := by
  induction blocks using snoc_induction with
  | hn =>
    intro _ hc
    have hp : ([] : Bytes) <+: w := List.nil_prefix
    refine ⟨[], Z.init, rfl, h.init, hp, fun _ => rfl, fun hp' => prefix_antisymm hp hp', fun _ _ => ?_⟩
    exact h.nothing.symm
  | hs bs b ih =>
    intro hn hc
    rw [List.mem_append, List.mem_singleton] at hn
    have hb : b ≠ [] := fun hb => hn (Or.inr hb.symm)
    rw [List.flatten_append, List.flatten_singleton] at hc ⊢
    have hc0 : bs.flatten <+: w ∨ w <+: bs.flatten := by
      rcases hc with hc | hc
      · exact Or.inl ((List.prefix_append _ _).trans hc)
      · exact List.prefix_or_prefix_of_prefix (List.prefix_append _ _) hc
    obtain ⟨i, s, k1, k2, k3, k4, k5, k6⟩ := ih (fun hx => hn (Or.inl hx)) hc0
    have hlen : 0 < b.length := List.length_pos_iff.2 hb
    have hcat : i ++ b <+: w ∨ w <+: i ++ b := by
      rcases hc0 with hc0 | hc0
      · rw [k4 hc0]; exact hc
      · rw [k5 hc0]; exact Or.inr (List.prefix_append _ _)
    obtain ⟨i', s', x, m1, m2, m3, m4, m5, m6⟩ := loop_mid h hw fuel s i _ b [] k2 k3 hb hcat (by omega)
    have hshort : bs.flatten ++ b <+: w → bs.flatten <+: w := fun hp => (List.prefix_append _ _).trans hp
    refine ⟨i', s', ?_, ?_, m3, fun hp => ?_, fun hp => ?_, fun hall hp => ?_⟩
    · rw [run_snoc, k1]
      unfold Gunzip.transform
      dsimp only
      rw [m1]
    · rw [unzipped_snoc, gunzip_snoc, k1]
      unfold Gunzip.transform
      dsimp only
      rw [m1]
      exact m2
    · have e := k4 (hshort hp)
      rw [m4 (by rw [e]; exact hp), e]
    · rcases hc0 with hc0 | hc0
      · exact m5 (by rw [k4 hc0]; exact hp)
      · exact m5 (by rw [k5 hc0]; exact List.prefix_append _ _)
    · have e := k4 (hshort hp)
      have e0 := k6 (fun a c d e' => hall a c (d ++ [b]) (by rw [e']; simp)) (hshort hp)
      have ei : i' = bs.flatten ++ b := by rw [m4 (by rw [e]; exact hp), e]
      have hx : unzipped (gunzip Z fuel) (bs ++ [b]) = unzipped (gunzip Z fuel) bs ++ x := by
        rw [unzipped_snoc, gunzip_snoc, k1]
        unfold Gunzip.transform
        dsimp only
        rw [m1]
        rfl
      rw [hx, ← ei]
      refine m6 ?_
      have := hall bs b [] rfl (by rw [List.flatten_append, List.flatten_singleton]; exact hp)
      rw [List.flatten_append, List.flatten_singleton, ← ei, ← e0] at this
      exact this

end

/-! ## Content that is not compressed -/

theorem transform_bad (Z : Zlib) (fuel : Nat) (g : Gunzip Z) (hg : g.bad = true) (b : Bytes) : (g.transform Z fuel b).1.bad = true ∧ (g.transform Z fuel b).2 = b := by
  unfold Gunzip.transform
  have : (Gunzip.loop Z fuel g.stream g.bad b []).2.1 = true := by
    rw [hg]
    cases fuel with
    | zero => rfl
    | succ n => unfold Gunzip.loop; rw [if_pos rfl]
  dsimp only
  rw [this]
  exact ⟨rfl, if_pos rfl⟩

theorem transform_raw (Z : Zlib) (fuel : Nat) (g : Gunzip Z) (b : Bytes) (hg : (g.transform Z fuel b).1.bad = true) : (g.transform Z fuel b).2 = b := by
  unfold Gunzip.transform at hg ⊢
  dsimp only at hg ⊢
  rw [if_pos hg]

theorem run_raw (Z : Zlib) (fuel : Nat) (blocks : List Bytes) : ∃ a b, blocks = a ++ b ∧ unzipped (gunzip Z fuel) blocks = unzipped (gunzip Z fuel) a ++ b.flatten ∧
    (Gunzip.run Z fuel a).bad = false ∧ (∀ x y, b = x :: y → (Gunzip.run Z fuel (a ++ [x])).bad = true) ∧ (b ≠ [] → (Gunzip.run Z fuel blocks).bad = true) := by
  induction blocks using snoc_induction with
  | hn => exact ⟨[], [], rfl, rfl, rfl, fun x y h => (by cases h), fun h => absurd rfl h⟩
  | hs bs x ih =>
    obtain ⟨a, b, h1, h2, h3, h4, h5⟩ := ih
    cases b with
    | nil =>
      rw [List.append_nil] at h1
      subst h1
      by_cases hb : (Gunzip.run Z fuel (bs ++ [x])).bad = true
      · refine ⟨bs, [x], rfl, ?_, h3, fun y z e => ?_, fun _ => hb⟩
        · rw [unzipped_snoc, gunzip_snoc, transform_raw Z fuel _ _ (by rw [← run_snoc]; exact hb)]
          simp
        · injection e with e1 e2
          subst e1
          exact hb
      · exact ⟨bs ++ [x], [], by simp, by simp, by simpa using hb, fun y z e => (by cases e), fun h => absurd rfl h⟩
    | cons y z =>
      have hbad := h5 (by simp)
      obtain ⟨t1, t2⟩ := transform_bad Z fuel _ hbad x
      refine ⟨a, y :: z ++ [x], by rw [h1]; simp, ?_, h3, fun u v e => ?_, fun _ => by rw [run_snoc]; exact t1⟩
      · rw [unzipped_snoc, gunzip_snoc, t2, h2]
        simp
      · rw [List.cons_append] at e
        injection e with e1 e2
        subst e1
        exact h4 y z rfl

end Pillow
