import Verif.Lemmas.ReplyName
/-!
# The values of headers in a response
-/
namespace Pillow
open Spec
variable {σ : Type} {cb : CB σ} {F V B : Bytes → σ → σ} {Rel : σ → σ → Prop}

theorem steps_colon (hL : Laws cb F V B Rel) (q : HParser) (he : q.errno = .ok) (hs : HState) (i n : Nat) (x : Bytes) (s : σ) (hn : n + 1 ≤ maxHeaderSize) :
    Steps cb Rel (at_ q .field hs i n) (F x s) b!":" (at_ q .valueStart hs i (n + 1)) (F x s) := by
  refine step_plain hL (by simp [at_]) (Or.inl (by simp only [at_]; omega)) ?_
  show dataField cb (at_ q .valueStart hs i (n + 1)) (F x s) ⟨some [], none, none⟩ = _
  rw [dataField_eq hL (by exact he), ← hL.fieldApp, List.append_nil]

theorem steps_pad (hL : Laws cb F V B Rel) : ∀ (t : Bytes) (q : HParser) (hs : HState) (i n : Nat) (s : σ), (∀ b ∈ t, b = 32 ∨ b = 9) →
    n + t.length ≤ maxHeaderSize → Steps cb Rel (at_ q .valueStart hs i n) s t (at_ q .valueStart hs i (n + t.length)) s
  | [], q, hs, i, n, s, _, _ => Steps.nil hL _ _
  | c :: t, q, hs, i, n, s, hd, hn => by
    simp only [List.length_cons] at hn
    have h1 : Steps cb Rel (at_ q .valueStart hs i n) s [c] (at_ q .valueStart hs i (n + 1)) s := by
      refine step_plain hL (by simp [at_]) (Or.inl (by simp only [at_]; omega)) ?_
      show doValueStart cb (at_ q .valueStart hs i (n + 1)) s {} c = _
      unfold doValueStart
      rw [if_pos (hd c (by simp))]
    have := h1.trans hL (steps_pad hL t q hs i (n + 1) s (fun x hx => hd x (by simp [hx])) (by omega))
    rw [show n + 1 + t.length = n + (c :: t).length by simp; omega] at this
    exact this

/-- What the end of a line does. -/
def lineDone (hs : HState) (q : HParser) : HParser :=
  match hs with
  | .keepAlive => { q with fKeepAlive := true }
  | .close => { q with fClose := true }
  | .chunked => { q with fChunked := true }
  | _ => q

theorem steps_lf (hL : Laws cb F V B Rel) (q : HParser) (hs : HState) (i n : Nat) (s : σ) (hn : n + 1 ≤ maxHeaderSize) :
    Steps cb Rel (at_ q .almostDone hs i n) s b!"\n" (at_ (lineDone hs q) .valueLws hs i (n + 1)) s := by
  refine step_plain hL (by simp [at_]) (Or.inl (by simp only [at_]; omega)) ?_
  cases hs <;> rfl

theorem steps_eol (hL : Laws cb F V B Rel) (q : HParser) (he : q.errno = .ok) (hs : HState) (i n : Nat) (x : Bytes) (s : σ) (hn : n + 2 ≤ maxHeaderSize) :
    Steps cb Rel (at_ q .value hs i n) (V x s) b!"\r\n" (at_ (lineDone hs q) .valueLws hs i (n + 2)) (V x s) := by
  have h1 : Steps cb Rel (at_ q .value hs i n) (V x s) b!"\r" (at_ q .almostDone hs i (n + 1)) (V x s) := by
    refine step_plain hL (by simp [at_]) (Or.inl (by simp only [at_]; omega)) ?_
    show dataValue cb (at_ q .almostDone hs i (n + 1)) (V x s) ⟨none, some [], none⟩ = _
    rw [dataValue_eq hL (by exact he), ← hL.valueApp, List.append_nil]
  exact h1.trans hL (steps_lf hL q hs i (n + 1) _ (by omega))

theorem steps_empty (hL : Laws cb F V B Rel) (q : HParser) (he : q.errno = .ok) (hs : HState) (i n : Nat) (s : σ) (hn : n + 2 ≤ maxHeaderSize) :
    Steps cb Rel (at_ q .valueStart hs i n) s b!"\r\n" (at_ q .valueLws .general 0 (n + 2)) (V [] s) := by
  have h1 : Steps cb Rel (at_ q .valueStart hs i n) s b!"\r" (at_ q .almostDone .general 0 (n + 1)) (V [] s) := by
    refine step_plain hL (by simp [at_]) (Or.inl (by simp only [at_]; omega)) ?_
    show dataValue cb (at_ q .almostDone .general 0 (n + 1)) s ⟨none, some [], none⟩ = _
    rw [dataValue_eq hL (by exact he)]
  exact h1.trans hL (steps_lf hL q .general 0 (n + 1) _ (by omega))

/-- The first character of a value. -/
theorem step_first (hL : Laws cb F V B Rel) (q q' : HParser) (hs hs' : HState) (i n : Nat) (s : σ) (c : Byte) (hn : n + 1 ≤ maxHeaderSize)
    (hc : TextChar c ∧ c ≠ 32 ∧ c ≠ 9)
    (hw : (match hs with
      | .upgrade => (none : Option HParser)
      | .transferEncoding => some (at_ q .value (if lowerC c = 99 then .mChunked else .general) 0 (n + 1))
      | .contentLength => if !isNum c then none else some (at_ { q with contentLength := c.toNat - 48 } .value hs 0 (n + 1))
      | .connection => some (at_ q .value (if lowerC c = 107 then .mKeepAlive else if lowerC c = 99 then .mClose else .general) 0 (n + 1))
      | _ => some (at_ q .value .general 0 (n + 1))) = some (at_ q' .value hs' 0 (n + 1))) :
    Steps cb Rel (at_ q .valueStart hs i n) s [c] (at_ q' .value hs' 0 (n + 1)) (V [c] s) := by
  refine step_go hL (s1 := s) (m1 := ⟨none, some [], none⟩) (by simp [at_]) (Or.inl (by simp only [at_]; omega)) ?_
  show doValueStart cb (at_ q .valueStart hs i (n + 1)) s {} c = _
  unfold doValueStart
  rw [if_neg (by simp [hc.2])]
  dsimp only
  rw [if_neg hc.1.1, if_neg hc.1.2]
  cases hs <;> first
    | (have e := Option.some.inj hw; rw [← e]; rfl)
    | cases hw
    | (show (if !isNum c then _ else _) = _
       by_cases h : (!isNum c) = true
       · simp only [h, if_true] at hw; cases hw
       · rw [if_neg h] at hw ⊢
         have e := Option.some.inj hw
         rw [← e]; rfl)

/-- A further character of a value. -/
theorem step_more (hL : Laws cb F V B Rel) (q q' : HParser) (hs hs' : HState) (i i' n : Nat) (x : Bytes) (s : σ) (c : Byte) (hn : n + 1 ≤ maxHeaderSize)
    (hc : TextChar c) (hw : valueChar (at_ q .value hs i (n + 1)) (lowerC c) c = some (at_ q' .value hs' i' (n + 1))) :
    Steps cb Rel (at_ q .value hs i n) (V x s) [c] (at_ q' .value hs' i' (n + 1)) (V (x ++ [c]) s) := by
  rw [hL.valueApp]
  refine step_go hL (m1 := ⟨none, some [], none⟩) (by simp [at_]) (Or.inl (by simp only [at_]; omega)) ?_
  show doValue cb (at_ q .value hs i (n + 1)) (V x s) ⟨none, some [], none⟩ c = _
  unfold doValue
  rw [if_neg hc.1, if_neg hc.2, hw]

theorem steps_general (hL : Laws cb F V B Rel) : ∀ (t : Bytes) (q : HParser) (i n : Nat) (x : Bytes) (s : σ), (∀ b ∈ t, TextChar b) → n + t.length ≤ maxHeaderSize →
    Steps cb Rel (at_ q .value .general i n) (V x s) t (at_ q .value .general i (n + t.length)) (V (x ++ t) s)
  | [], q, i, n, x, s, _, _ => by simpa using Steps.nil hL _ _
  | c :: t, q, i, n, x, s, hd, hn => by
    simp only [List.length_cons] at hn
    have h1 := step_more hL q q .general .general i i n x s c (by omega) (hd c (by simp)) rfl
    have := h1.trans hL (steps_general hL t q i (n + 1) (x ++ [c]) s (fun x hx => hd x (by simp [hx])) (by omega))
    rw [show n + 1 + t.length = n + (c :: t).length by simp; omega, List.append_assoc] at this
    exact this

/-! ## The tokens -/

/-- What is known when a value that may say `N` begins with `v`. -/
def ValInv (N : Bytes) (ms f : HState) (hs : HState) (i : Nat) (v : Bytes) : Prop :=
  (hs = ms ∧ i + 1 < N.length ∧ v.map lower = N.take (i + 1)) ∨ (hs = f ∧ ∃ k, v.map lower = N ++ List.replicate k 32) ∨
    (hs = .general ∧ ∀ k, ¬ v.map lower <+: N ++ List.replicate k 32)

/-- The tokens the parser knows. -/
def TokenFor (N : Bytes) (ms f : HState) : Prop :=
  (N = b!"chunked" ∧ ms = .mChunked ∧ f = .chunked) ∨ (N = b!"keep-alive" ∧ ms = .mKeepAlive ∧ f = .keepAlive) ∨
    (N = b!"close" ∧ ms = .mClose ∧ f = .close)

theorem lowerC_lower (c : Byte) (h : c ≠ 13) : ∀ x ∈ b!"chunkedkeep-aliveclose", lowerC c = x ↔ lower c = x := by
  revert c; apply byte_forall; decide +kernel

theorem lower_space (c : Byte) : lower c = 32 → c = 32 := by
  revert c; apply byte_forall; decide +kernel

theorem valInv_step {N : Bytes} {ms f hs : HState} {i : Nat} {v : Bytes} (hN : TokenFor N ms f) (h : ValInv N ms f hs i v) (q : HParser) (n : Nat) (c : Byte)
    (hc : TextChar c) : ∃ hs' i', valueChar (at_ q .value hs i n) (lowerC c) c = some (at_ q .value hs' i' n) ∧ ValInv N ms f hs' i' (v ++ [c]) := by
  rcases h with ⟨h1, h2, h3⟩ | ⟨h1, k, h3⟩ | ⟨h1, h3⟩
  · have hmem : constAt N (i + 1) ∈ b!"chunkedkeep-aliveclose" := by
      have hi := h2
      clear h2 h3
      rcases hN with ⟨rfl, -, -⟩ | ⟨rfl, -, -⟩ | ⟨rfl, -, -⟩
      · exact (by decide +kernel : ∀ i < 7, i + 1 < 7 → constAt b!"chunked" (i + 1) ∈ b!"chunkedkeep-aliveclose") i (by simp only [List.length_cons, List.length_nil] at hi; omega) hi
      · exact (by decide +kernel : ∀ i < 10, i + 1 < 10 → constAt b!"keep-alive" (i + 1) ∈ b!"chunkedkeep-aliveclose") i (by simp only [List.length_cons, List.length_nil] at hi; omega) hi
      · exact (by decide +kernel : ∀ i < 5, i + 1 < 5 → constAt b!"close" (i + 1) ∈ b!"chunkedkeep-aliveclose") i (by simp only [List.length_cons, List.length_nil] at hi; omega) hi
    refine ⟨if lowerC c ≠ constAt N (i + 1) then .general else if i + 1 = N.length - 1 then f else hs, i + 1, ?_, ?_⟩
    · rw [← matchStep_at N f q .value hs i n (lowerC c) h2]
      rcases hN with ⟨rfl, rfl, rfl⟩ | ⟨rfl, rfl, rfl⟩ | ⟨rfl, rfl, rfl⟩ <;> (subst h1; rfl)
    · by_cases he : lowerC c = constAt N (i + 1)
      · have e2 : ¬ lowerC c ≠ constAt N (i + 1) := fun h => h he
        rw [if_neg e2]
        have hv : (v ++ [c]).map lower = N.take (i + 1 + 1) := by
          rw [List.map_append, h3, List.map_singleton, (lowerC_lower c hc.1 _ hmem).1 he, take_const h2]
        by_cases hl : i + 1 = N.length - 1
        · rw [if_pos hl]
          refine Or.inr (Or.inl ⟨rfl, 0, ?_⟩)
          rw [hv, List.take_of_length_le (by omega)]
          simp
        · rw [if_neg hl]
          exact Or.inl ⟨h1, by omega, hv⟩
      · rw [if_pos he]
        refine Or.inr (Or.inr ⟨rfl, fun k hp => he ?_⟩)
        rw [List.map_append, h3, List.map_singleton] at hp
        have := (prefix_snoc hp).2
        rw [List.length_take, Nat.min_eq_left (by omega), List.getElem?_append_left h2] at this
        refine (lowerC_lower c hc.1 _ hmem).2 ?_
        unfold constAt
        rw [List.getD_eq_getElem?_getD, List.getElem?_append_left h2, this]
        rfl
  · subst h1
    by_cases h32 : c = 32
    · refine ⟨hs, i, ?_, Or.inr (Or.inl ⟨rfl, k + 1, ?_⟩)⟩
      · subst h32
        rcases hN with ⟨-, -, rfl⟩ | ⟨-, -, rfl⟩ | ⟨-, -, rfl⟩ <;> rfl
      · rw [List.map_append, h3, h32, List.replicate_succ', List.append_assoc]
        rfl
    · refine ⟨.general, i, ?_, Or.inr (Or.inr ⟨rfl, fun k' hp => h32 ?_⟩)⟩
      · rcases hN with ⟨-, -, rfl⟩ | ⟨-, -, rfl⟩ | ⟨-, -, rfl⟩ <;> (show some (if c ≠ 32 then _ else _) = _; rw [if_pos h32]; rfl)
      · rw [List.map_append, h3, List.map_singleton] at hp
        have := (prefix_snoc hp).2
        rw [List.getElem?_append_right (by simp)] at this
        have := List.mem_of_getElem? this
        rw [List.mem_replicate] at this
        exact lower_space c this.2
  · subst h1
    refine ⟨.general, i, rfl, Or.inr (Or.inr ⟨rfl, fun k hp => h3 k ?_⟩)⟩
    rw [List.map_append] at hp
    exact (prefix_snoc hp).1

theorem valInv_says {N : Bytes} {ms f hs : HState} {i : Nat} {v : Bytes} (hN : TokenFor N ms f) (h : ValInv N ms f hs i v) :
    (hs = f ↔ Says v N) ∧ (hs = ms ∨ hs = f ∨ hs = .general) := by
  have hl : N.map lower = N := by rcases hN with ⟨rfl, -, -⟩ | ⟨rfl, -, -⟩ | ⟨rfl, -, -⟩ <;> decide +kernel
  have hsays : Says v N ↔ ∃ k, v.map lower = N ++ List.replicate k 32 := by
    unfold Says SameCI
    simp only [List.map_append, hl, List.map_replicate, show lower 32 = 32 from by decide]
  have hne : ms ≠ f ∧ HState.general ≠ f := by rcases hN with ⟨-, rfl, rfl⟩ | ⟨-, rfl, rfl⟩ | ⟨-, rfl, rfl⟩ <;> simp
  rw [hsays]
  rcases h with ⟨h1, h2, h3⟩ | ⟨h1, k, h3⟩ | ⟨h1, h3⟩
  · refine ⟨⟨fun h => absurd (h1.symm.trans h) hne.1, fun ⟨k, h⟩ => ?_⟩, Or.inl h1⟩
    have := congrArg List.length (h3.symm.trans h)
    simp at this
    omega
  · exact ⟨⟨fun _ => ⟨k, h3⟩, fun _ => h1⟩, Or.inr (Or.inl h1)⟩
  · exact ⟨⟨fun h => absurd (h1.symm.trans h) hne.2, fun ⟨k, h⟩ => absurd (h ▸ List.prefix_refl _) (h3 k)⟩, Or.inr (Or.inr h1)⟩

theorem steps_token (hL : Laws cb F V B Rel) {N : Bytes} {ms f : HState} (hN : TokenFor N ms f) : ∀ (t : Bytes) (q : HParser) (hs : HState) (i n : Nat) (x : Bytes)
    (s : σ), (∀ b ∈ t, TextChar b) → ValInv N ms f hs i x → n + t.length ≤ maxHeaderSize → ∃ hs' i', ValInv N ms f hs' i' (x ++ t) ∧
    Steps cb Rel (at_ q .value hs i n) (V x s) t (at_ q .value hs' i' (n + t.length)) (V (x ++ t) s)
  | [], q, hs, i, n, x, s, _, hi, _ => ⟨hs, i, by simpa using hi, by simpa using Steps.nil hL _ _⟩
  | c :: t, q, hs, i, n, x, s, ht, hi, hn => by
    simp only [List.length_cons] at hn
    obtain ⟨hs1, i1, hf, hi1⟩ := valInv_step hN hi q (n + 1) c (ht c (by simp))
    obtain ⟨hs2, i2, hi2, k⟩ := steps_token hL hN t q hs1 i1 (n + 1) (x ++ [c]) s (fun b hb => ht b (by simp [hb])) hi1 (by omega)
    have k0 := step_more hL q q hs hs1 i i1 n x s c (by omega) (ht c (by simp)) hf
    refine ⟨hs2, i2, by simpa using hi2, ?_⟩
    have := k0.trans hL k
    rw [show n + 1 + t.length = n + (c :: t).length by simp; omega, List.append_assoc] at this
    exact this

theorem addDigit_ok {p : HParser} {base d : Nat} (hb : 0 < base) (h : p.contentLength * base + d < ullMax) :
    addDigit p base d = some { p with contentLength := p.contentLength * base + d } := by
  have e : (p.contentLength * base + d) % 2 ^ 64 = p.contentLength * base + d := Nat.mod_eq_of_lt (by unfold ullMax at h; omega)
  have h2 : p.contentLength ≤ p.contentLength * base := Nat.le_mul_of_pos_right _ hb
  unfold addDigit
  dsimp only
  rw [e, if_neg (by omega)]

theorem steps_length (hL : Laws cb F V B Rel) : ∀ (t : Bytes) (q : HParser) (i n : Nat) (x : Bytes) (s : σ), (∀ c ∈ t, isNum c = true) →
    dec q.contentLength t < ullMax → n + t.length ≤ maxHeaderSize →
    Steps cb Rel (at_ q .value .contentLength i n) (V x s) t (at_ { q with contentLength := dec q.contentLength t } .value .contentLength i (n + t.length)) (V (x ++ t) s)
  | [], q, i, n, x, s, _, _, _ => by
    have := Steps.nil hL (at_ q .value .contentLength i n) (V x s)
    rw [List.append_nil]
    exact this
  | c :: t, q, i, n, x, s, hd, hb, hn => by
    simp only [List.length_cons] at hn
    have hc := hd c (by simp)
    have hne : TextChar c ∧ c ≠ 32 := by
      refine ⟨⟨?_, ?_⟩, ?_⟩ <;> (rintro rfl; simp [isNum] at hc)
    have hle : q.contentLength * 10 + (c.toNat - 48) ≤ dec (q.contentLength * 10 + (c.toNat - 48)) t := dec_mono t _
    rw [dec_cons] at hb ⊢
    have h1 := step_more hL q { q with contentLength := q.contentLength * 10 + (c.toNat - 48) } .contentLength .contentLength i i n x s c (by omega) hne.1 (by
      show (if c = 32 then _ else if !isNum c then _ else addDigit (at_ q .value .contentLength i (n + 1)) 10 (c.toNat - 48)) = _
      rw [if_neg hne.2, hc, if_neg (by simp)]
      rw [addDigit_ok (by decide) (by show q.contentLength * 10 + (c.toNat - 48) < ullMax; omega)]
      rfl)
    have := h1.trans hL (steps_length hL t { q with contentLength := q.contentLength * 10 + (c.toNat - 48) } i (n + 1) (x ++ [c]) s (fun x hx => hd x (by simp [hx])) hb (by omega))
    rw [show n + 1 + t.length = n + (c :: t).length by simp; omega, List.append_assoc] at this
    exact this

end Pillow
