import Verif.Lemmas.ReplyParser
/-!
# A response that arrives in pieces
-/
namespace Pillow
open Spec
variable {σ : Type} {cb : CB σ} {F V B : Bytes → σ → σ} {Rel : σ → σ → Prop}

theorem switch_le' (hL : Laws cb F V B Rel) {p : HParser} {s : σ} {m : Marks} {ch : Byte} {tl : Bytes} (he : p.errno = .ok) :
    match switch cb p s m ch (ch :: tl) with | .go _ _ _ n => n ≤ tl.length + 1 | .ret _ _ n => n ≤ tl.length + 1 := by
  by_cases h3 : p.state = .bodyIdentity
  · rw [switch_identity h3]
    unfold doBodyIdentity
    dsimp only
    generalize hp1 : HParser.assert p _ = p1
    have e1 : p1.errno = .ok := by rw [← hp1]; unfold HParser.assert; split <;> exact he
    by_cases hz : p1.contentLength - min p.contentLength (ch :: tl).length = 0
    · rw [if_pos hz, assert_ok e1, if_neg (by simp [hL.body, e1])]
      split
      · rename_i h
        split at h
        · cases h
        · cases h; simp only [List.length_cons]; omega
      · rename_i h
        split at h
        · cases h; simp only [List.length_cons]; omega
        · cases h
    · rw [if_neg hz]; simp only [List.length_cons]; omega
  by_cases h4 : p.state = .chunkData
  · rw [switch_chunk h4]; unfold doChunkData; simp only [List.length_cons]; omega
  by_cases h5 : p.state = .bodyEof
  · rw [switch_eof h5]; simp
  have h := switch_one (cb := cb) (s := s) (m := m) (ch := ch) (rest := ch :: tl) h3 h4 h5
  revert h
  cases switch cb p s m ch (ch :: tl) with
  | go p s m n => intro h; have h : n = 1 := h; simp; omega
  | ret p s n => intro h; have h : n ≤ 1 := h; simp; omega

theorem execLoop_le (hL : Laws cb F V B Rel) : ∀ (data : Bytes) (p : HParser) (s : σ) (m : Marks) (pos : Nat), MOk p m → p.errno = .ok → Good 0 p →
    (execLoop cb p s m data pos).2.2 ≤ pos + data.length ∧
    ((execLoop cb p s m data pos).1.errno = .ok → (execLoop cb p s m data pos).2.2 = pos + data.length)
  | [], p, s, m, pos, hm, he, hg => by
    rw [execLoop_nil, leftover_eq hL hm he]
    exact ⟨Nat.le_refl _, fun _ => rfl⟩
  | ch :: tl, p, s, m, pos, hm, he, hg => by
    rw [execLoop_cons]
    have hc := counted_good hg
    have hce : (counted p).errno = .ok := (counted_facts p).2.trans he
    have hcs := hm.counted
    generalize counted p = q at hc hce hcs ⊢
    split
    · exact ⟨by simp, fun h => by simp at h⟩
    · have hsm := switch_safe hL.tame (s := s) (ch := ch) (rest := ch :: tl) hcs hce hc
      have hsg := switch_good hL.tame (s := s) (m := m) (ch := ch) (tl := tl) hc hce
      have hsl := switch_le' hL (s := s) (m := m) (ch := ch) (tl := tl) hce
      revert hsm hsg hsl
      cases switch cb q s m ch (ch :: tl) with
      | ret p1 s1 n1 =>
        rintro _ ⟨h1, h2, h3⟩ h5
        have h5 : n1 ≤ tl.length + 1 := h5
        exact ⟨by simp only [List.length_cons]; omega, fun h => absurd h h1⟩
      | go p1 s1 m1 n1 =>
        rintro h3 ⟨h5, h6, h7⟩ h8
        have h8 : n1 ≤ tl.length + 1 := h8
        have ih := execLoop_le hL (tl.drop (n1 - 1)) p1 s1 (m1.adv ((ch :: tl).take n1)) (pos + n1) (adv_ok h3 _) h6 h5
        dsimp only
        have hl : pos + n1 + (tl.drop (n1 - 1)).length = pos + (ch :: tl).length := by
          simp only [List.length_drop, List.length_cons]; omega
        rw [hl] at ih
        exact ih
termination_by data => data.length
decreasing_by all_goals (simp; try omega)

/-- The first piece of something that ends later: all of it is consumed, and the rest ends the same way. -/
theorem Ends.split (hL : Laws cb F V B Rel) {p x : HParser} {s y : σ} {u v : Bytes} (h : Ends cb Rel p s (u ++ v) x y) (hu : u ≠ []) (hv : v ≠ []) (hx : x.errno = .paused)
    (hg : Good 0 p) (he : p.errno = .ok) : ∃ p1 s1, execute cb p s u = (p1, s1, u.length) ∧ Good 0 p1 ∧ p1.errno = .ok ∧ Ends cb Rel p1 s1 v x y := by
  have hle := execLoop_le hL u p s (fresh p) 0 (fresh_ok p) he hg
  have happ := fun w => execLoop_append hL u w p s (fresh p) 0 (fresh_ok p) he hg
  have hsafe := execute_safe hL.tame (p := p) ⟨hg.noBad, fun _ => hg⟩ s u
  have hlen : 0 < v.length := List.length_pos_iff.2 hv
  rw [execute_loop he hu] at hsafe ⊢
  generalize hr : execLoop cb p s (fresh p) u 0 = r at hle happ hsafe ⊢
  obtain ⟨p1, s1, n⟩ := r
  dsimp only [Nat.zero_add] at hle hsafe
  have hok : p1.errno = .ok := by
    refine Decidable.byContradiction fun hne => ?_
    have h1 := h hg he [] 0
    have h2 := happ v
    unfold andThen at h2
    rw [if_neg hne] at h2
    rw [List.append_nil] at h1
    have h3 := h1.consumed.symm.trans h2.consumed
    dsimp only at h3
    have := hle.1
    simp only [List.length_append] at h3
    omega
  have hn : n = u.length := by rw [hle.2 hok]; simp
  subst hn
  refine ⟨p1, s1, rfl, hsafe.2 (Or.inl hok), hok, fun _ _ rest pos => ?_⟩
  have h1 := h hg he rest 0
  have h2 := happ (v ++ rest)
  unfold andThen at h2
  rw [if_pos hok] at h2
  dsimp only at h2
  rw [← List.append_assoc] at h2
  rw [execLoop_pos]
  have hp := h1.parser.symm.trans h2.parser
  have hc := h1.consumed.symm.trans h2.consumed
  dsimp only at hp hc
  refine ⟨hp.symm, ?_, fun hq => ?_, ?_⟩
  · dsimp only
    simp only [List.length_append] at hc
    omega
  · have e1 := h1.state (by rw [h1.parser]; exact Or.inr hx)
    have e2 := h2.state (by rw [h1.parser]; exact Or.inr hx)
    exact e2.symm.trans e1
  · exact hL.trans _ _ _ (hL.symm _ _ h2.rel) h1.rel

theorem Agree.symm (hL : Laws cb F V B Rel) {x y : HParser × σ × Nat} (h : Agree Rel x y) : Agree Rel y x :=
  ⟨h.parser.symm, h.consumed.symm, fun he => (h.state (by rw [h.parser]; exact he)).symm, hL.symm _ _ h.rel⟩

/-- The first piece of something that does not end. -/
theorem Steps.split (hL : Laws cb F V B Rel) {p x : HParser} {s y : σ} {u v : Bytes} (h : Steps cb Rel p s (u ++ v) x y) (hu : u ≠ [])
    (hg : Good 0 p) (he : p.errno = .ok) : ∃ p1 s1, execute cb p s u = (p1, s1, u.length) ∧ Good 0 p1 ∧ p1.errno = .ok ∧ Steps cb Rel p1 s1 v x y := by
  have hle := execLoop_le hL u p s (fresh p) 0 (fresh_ok p) he hg
  have happ := fun w => execLoop_append hL u w p s (fresh p) 0 (fresh_ok p) he hg
  have hsafe := execute_safe hL.tame (p := p) ⟨hg.noBad, fun _ => hg⟩ s u
  obtain ⟨gx, ex, kx⟩ := h hg he
  rw [execute_loop he hu] at hsafe ⊢
  generalize hr : execLoop cb p s (fresh p) u 0 = r at hle happ hsafe ⊢
  obtain ⟨p1, s1, n⟩ := r
  dsimp only [Nat.zero_add] at hle hsafe
  have hok : p1.errno = .ok := by
    refine Decidable.byContradiction fun hne => ?_
    have h1 := kx [] 0
    have h2 := happ v
    unfold andThen at h2
    rw [if_neg hne] at h2
    rw [List.append_nil] at h1
    have h3 := h1.parser.symm.trans h2.parser
    dsimp only at h3
    rw [execLoop_nil, leftover_eq hL (fresh_ok x) ex] at h3
    dsimp only at h3
    rw [← h3] at hne
    exact hne ex
  have hn : n = u.length := by rw [hle.2 hok]; simp
  subst hn
  refine ⟨p1, s1, rfl, hsafe.2 (Or.inl hok), hok, fun _ _ => ⟨gx, ex, fun rest pos => ?_⟩⟩
  have h1 := kx rest 0
  have h2 := happ (v ++ rest)
  unfold andThen at h2
  rw [if_pos hok] at h2
  dsimp only at h2
  rw [← List.append_assoc] at h2
  have h3 := (h2.symm hL).trans hL h1
  rw [execLoop_pos _ _ _ _ pos, execLoop_pos _ _ _ _ (pos + v.length)]
  rw [execLoop_pos _ _ _ _ (0 + _)] at h3
  have h4 := h3.consumed
  simp only [List.length_append, Nat.zero_add] at h4
  exact ⟨h3.parser, by dsimp only; omega, h3.state, h3.rel⟩

/-- A piece of something, as far as it was parsed. -/
theorem steps_of_execute (hL : Laws cb F V B Rel) {p p1 : HParser} {s s1 : σ} {u : Bytes} (hu : u ≠ []) (hg : Good 0 p) (he : p.errno = .ok) (h1 : execute cb p s u = (p1, s1, u.length)) (h2 : Good 0 p1)
    (h3 : p1.errno = .ok) : Steps cb Rel p s u p1 s1 := by
  refine fun _ _ => ⟨h2, h3, fun rest pos => ?_⟩
  have := execLoop_append hL u rest p s (fresh p) pos (fresh_ok p) he hg
  rw [execute_loop he hu] at h1
  have e : execLoop cb p s (fresh p) u pos = (p1, s1, pos + u.length) := by rw [execLoop_pos, h1]
  rw [e] at this
  unfold andThen at this
  dsimp only at this
  rw [if_pos h3, ← execLoop_pos] at this
  exact this

/-- Something that ends, whatever follows. -/
theorem Ends.whole {p x : HParser} {s y : σ} {v : Bytes} (h : Ends cb Rel p s v x y) (hv : v ≠ []) (hx : x.errno = .paused)
    (hg : Good 0 p) (he : p.errno = .ok) (rest : Bytes) : execute cb p s (v ++ rest) = (x, y, v.length) := by
  have h1 := h hg he rest 0
  rw [execute_loop he (by simp [hv])]
  have hp := h1.parser
  have hs := h1.state (by rw [hp]; exact Or.inr hx)
  have hc := h1.consumed
  generalize execLoop cb p s (fresh p) (v ++ rest) 0 = r at hp hs hc
  obtain ⟨a, b, c⟩ := r
  dsimp only at hp hs hc
  rw [hp, hs, hc, Nat.zero_add]

end Pillow
