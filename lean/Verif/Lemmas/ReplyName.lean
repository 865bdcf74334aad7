import Verif.Lemmas.ReplySteps
/-!
# The names of headers in a response
-/
namespace Pillow
open Spec
variable {σ : Type} {cb : CB σ} {F V B : Bytes → σ → σ} {Rel : σ → σ → Prop}

theorem token_lower {b : Byte} (h : TokenChar b) : token b = lower b ∧ token b ≠ 0 ∧ b ≠ 32 ∧ b ≠ 9 ∧ b ≠ 13 ∧ b ≠ 10 := by
  revert b; apply byte_forall; decide +kernel

/-- The names the parser knows. -/
def knownNames : List Bytes := [b!"connection", b!"proxy-connection", b!"content-length", b!"transfer-encoding", b!"upgrade"]

/-- What is known when the lower-cased name begins with `L`. -/
inductive NameInv : HState → Nat → Bytes → Prop where
  | c : NameInv .c 0 b!"c"
  | co : NameInv .co 1 b!"co"
  | con : NameInv .con 2 b!"con"
  | conn (i : Nat) : 3 ≤ i → i + 1 < 10 → NameInv .mConnection i (b!"connection".take (i + 1))
  | proxy (i : Nat) : i + 1 < 16 → NameInv .mProxyConnection i (b!"proxy-connection".take (i + 1))
  | cont (i : Nat) : 3 ≤ i → i + 1 < 14 → NameInv .mContentLength i (b!"content-length".take (i + 1))
  | te (i : Nat) : i + 1 < 17 → NameInv .mTransferEncoding i (b!"transfer-encoding".take (i + 1))
  | up (i : Nat) : i + 1 < 7 → NameInv .mUpgrade i (b!"upgrade".take (i + 1))
  | connection (i : Nat) : NameInv .connection i b!"connection"
  | proxyConnection (i : Nat) : NameInv .connection i b!"proxy-connection"
  | contentLength (i : Nat) : NameInv .contentLength i b!"content-length"
  | transferEncoding (i : Nat) : NameInv .transferEncoding i b!"transfer-encoding"
  | upgrade (i : Nat) : NameInv .upgrade i b!"upgrade"
  | general (i : Nat) (L : Bytes) : (∀ N ∈ knownNames, ¬ L <+: N) → NameInv .general i L

theorem prefix_snoc {L N : Bytes} {c : Byte} (h : L ++ [c] <+: N) : L <+: N ∧ N[L.length]? = some c := by
  obtain ⟨t, rfl⟩ := h
  exact ⟨⟨[c] ++ t, by simp⟩, by simp⟩

/-- The beginning `L` of a known name, with the bytes that can follow. -/
theorem leaves {L : Bytes} {c : Byte} (h : ∀ N ∈ knownNames, L.isPrefixOf N = true → N[L.length]? ≠ some c) : ∀ N ∈ knownNames, ¬ L ++ [c] <+: N := by
  intro N hN hp
  obtain ⟨h1, h2⟩ := prefix_snoc hp
  exact h N hN (List.isPrefixOf_iff_prefix.2 h1) h2

theorem full {L : Bytes} {c : Byte} (h : ∀ N ∈ knownNames, L.isPrefixOf N = true → N[L.length]? = none) :
    ∀ N ∈ knownNames, L.isPrefixOf N = true → N[L.length]? ≠ some c := by
  intro N hN hp
  rw [h N hN hp]; simp

theorem matchStep_at (N : Bytes) (f : HState) (q : HParser) (st : PState) (hs : HState) (i n : Nat) (c : Byte) (hi : i + 1 < N.length) :
    matchStep N f (at_ q st hs i n) c = at_ q st (if c ≠ constAt N (i + 1) then .general else if i + 1 = N.length - 1 then f else hs) (i + 1) n := by
  unfold matchStep at_
  dsimp only
  by_cases h : c = constAt N (i + 1)
  · have e1 : ¬ (i + 1 > N.length ∨ c ≠ constAt N (i + 1)) := fun h' => h'.elim (fun h' => by omega) (fun h' => h' h)
    have e2 : ¬ c ≠ constAt N (i + 1) := fun h' => h' h
    rw [if_neg e1, if_neg e2]
    by_cases h2 : i + 1 = N.length - 1
    · rw [if_pos h2, if_pos h2]
    · rw [if_neg h2, if_neg h2]
  · rw [if_pos (Or.inr h), if_pos h]

theorem take_const {N : Bytes} {i : Nat} (h : i + 1 < N.length) : N.take (i + 1) ++ [constAt N (i + 1)] = N.take (i + 1 + 1) := by
  rw [List.take_succ (i := i + 1)]
  congr 1
  unfold constAt
  rw [List.getD_eq_getElem?_getD, List.getElem?_append_left h, List.getElem?_eq_getElem h]
  rfl

theorem take_leaves (N : Bytes) (lo i : Nat) (c : Byte) (hlo : lo ≤ i) (hi : i + 1 < N.length) (hc : c ≠ constAt N (i + 1))
    (hd : ∀ i < N.length, lo ≤ i → i + 1 < N.length → ∀ M ∈ knownNames, (N.take (i + 1)).isPrefixOf M = true → M[i + 1]? = some (constAt N (i + 1))) :
    ∀ M ∈ knownNames, ¬ N.take (i + 1) ++ [c] <+: M := by
  refine leaves fun M hM hp => ?_
  rw [List.length_take, Nat.min_eq_left (by omega), hd i (by omega) hlo hi M hM hp]
  exact fun h => hc (Option.some.inj h).symm

theorem fieldChar_inv {hs : HState} {i : Nat} {L : Bytes} (h : NameInv hs i L) (q : HParser) (n : Nat) (c ch : Byte) (hch : ch ≠ 32) :
    ∃ hs' i', fieldChar (at_ q .field hs i n) c ch = at_ q .field hs' i' n ∧ NameInv hs' i' (L ++ [c]) := by
  have gen : ∀ i, (∀ N ∈ knownNames, L.isPrefixOf N = true → N[L.length]? ≠ some c) → NameInv .general i (L ++ [c]) := fun i h => .general i _ (leaves h)
  cases h with
  | c =>
    refine ⟨_, _, rfl, ?_⟩
    split
    · rename_i h; subst h; exact .co
    · rename_i h
      refine gen _ fun N hN _ => ?_
      simp only [knownNames, List.mem_cons, List.not_mem_nil, or_false] at hN
      rcases hN with rfl | rfl | rfl | rfl | rfl <;> simp_all <;> exact fun e => h e.symm
  | co =>
    refine ⟨_, _, rfl, ?_⟩
    split
    · rename_i h; subst h; exact .con
    · rename_i h
      refine gen _ fun N hN _ => ?_
      simp only [knownNames, List.mem_cons, List.not_mem_nil, or_false] at hN
      rcases hN with rfl | rfl | rfl | rfl | rfl <;> simp_all <;> exact fun e => h e.symm
  | con =>
    refine ⟨_, _, rfl, ?_⟩
    split
    · rename_i h; subst h; exact .conn 3 (by decide) (by decide)
    · split
      · rename_i h; subst h; exact .cont 3 (by decide) (by decide)
      · rename_i h h'
        refine gen _ fun N hN hp => ?_
        simp only [knownNames, List.mem_cons, List.not_mem_nil, or_false] at hN
        rcases hN with rfl | rfl | rfl | rfl | rfl <;> simp_all [List.isPrefixOf] <;> first | exact fun e => h e.symm | exact fun e => h' e.symm
  | conn i lo hi =>
    refine ⟨_, _, matchStep_at _ _ _ _ _ _ _ _ hi, ?_⟩
    split
    · rename_i h; exact .general _ _ (take_leaves _ 3 i c lo hi h (by decide +kernel))
    · rename_i h
      rw [Decidable.not_not] at h
      subst h
      rw [take_const hi]
      split
      · rename_i h; rw [h]; exact .connection _
      · rename_i h; exact .conn _ (by omega) (by simp only [List.length_cons, List.length_nil] at h; omega)
  | proxy i hi =>
    refine ⟨_, _, matchStep_at _ _ _ _ _ _ _ _ hi, ?_⟩
    split
    · rename_i h; exact .general _ _ (take_leaves _ 0 i c (by omega) hi h (by decide +kernel))
    · rename_i h
      rw [Decidable.not_not] at h
      subst h
      rw [take_const hi]
      split
      · rename_i h; rw [h]; exact .proxyConnection _
      · rename_i h; exact .proxy _ (by simp only [List.length_cons, List.length_nil] at h; omega)
  | cont i lo hi =>
    refine ⟨_, _, matchStep_at _ _ _ _ _ _ _ _ hi, ?_⟩
    split
    · rename_i h; exact .general _ _ (take_leaves _ 3 i c lo hi h (by decide +kernel))
    · rename_i h
      rw [Decidable.not_not] at h
      subst h
      rw [take_const hi]
      split
      · rename_i h; rw [h]; exact .contentLength _
      · rename_i h; exact .cont _ (by omega) (by simp only [List.length_cons, List.length_nil] at h; omega)
  | te i hi =>
    refine ⟨_, _, matchStep_at _ _ _ _ _ _ _ _ hi, ?_⟩
    split
    · rename_i h; exact .general _ _ (take_leaves _ 0 i c (by omega) hi h (by decide +kernel))
    · rename_i h
      rw [Decidable.not_not] at h
      subst h
      rw [take_const hi]
      split
      · rename_i h; rw [h]; exact .transferEncoding _
      · rename_i h; exact .te _ (by simp only [List.length_cons, List.length_nil] at h; omega)
  | up i hi =>
    refine ⟨_, _, matchStep_at _ _ _ _ _ _ _ _ hi, ?_⟩
    split
    · rename_i h; exact .general _ _ (take_leaves _ 0 i c (by omega) hi h (by decide +kernel))
    · rename_i h
      rw [Decidable.not_not] at h
      subst h
      rw [take_const hi]
      split
      · rename_i h; rw [h]; exact .upgrade _
      · rename_i h; exact .up _ (by simp only [List.length_cons, List.length_nil] at h; omega)
  | general i L h =>
    exact ⟨_, _, rfl, .general _ _ fun N hN hp => h N hN (prefix_snoc hp).1⟩
  | connection i => exact ⟨.general, i, if_pos hch, gen _ (full (by decide +kernel))⟩
  | proxyConnection i => exact ⟨.general, i, if_pos hch, gen _ (full (by decide +kernel))⟩
  | contentLength i => exact ⟨.general, i, if_pos hch, gen _ (full (by decide +kernel))⟩
  | transferEncoding i => exact ⟨.general, i, if_pos hch, gen _ (full (by decide +kernel))⟩
  | upgrade i => exact ⟨.general, i, if_pos hch, gen _ (full (by decide +kernel))⟩

/-- What the parser makes of a name. -/
def kindOf (L : Bytes) : HState :=
  if L = b!"connection" ∨ L = b!"proxy-connection" then .connection else if L = b!"content-length" then .contentLength
  else if L = b!"transfer-encoding" then .transferEncoding else if L = b!"upgrade" then .upgrade else .general

/-- The states that count at the start of a value. -/
def isSpecial : HState → HState
  | .connection => .connection | .contentLength => .contentLength | .transferEncoding => .transferEncoding | .upgrade => .upgrade | _ => .general

theorem nameInv_kind {hs : HState} {i : Nat} {L : Bytes} (h : NameInv hs i L) : isSpecial hs = kindOf L := by
  cases h with
  | conn i lo hi => exact (by decide +kernel : ∀ i < 10, i + 1 < 10 → isSpecial .mConnection = kindOf (b!"connection".take (i + 1))) i (by omega) hi
  | proxy i hi => exact (by decide +kernel : ∀ i < 16, i + 1 < 16 → isSpecial .mProxyConnection = kindOf (b!"proxy-connection".take (i + 1))) i (by omega) hi
  | cont i lo hi => exact (by decide +kernel : ∀ i < 14, i + 1 < 14 → isSpecial .mContentLength = kindOf (b!"content-length".take (i + 1))) i (by omega) hi
  | te i hi => exact (by decide +kernel : ∀ i < 17, i + 1 < 17 → isSpecial .mTransferEncoding = kindOf (b!"transfer-encoding".take (i + 1))) i (by omega) hi
  | up i hi => exact (by decide +kernel : ∀ i < 7, i + 1 < 7 → isSpecial .mUpgrade = kindOf (b!"upgrade".take (i + 1))) i (by omega) hi
  | general i L h =>
    have : ∀ N ∈ knownNames, L ≠ N := fun N hN e => h N hN (e ▸ List.prefix_refl _)
    simp only [knownNames, List.mem_cons, List.not_mem_nil, or_false, forall_eq_or_imp, forall_eq] at this
    obtain ⟨h1, h2, h3, h4, h5⟩ := this
    unfold kindOf
    rw [if_neg (by simp [h1, h2]), if_neg h3, if_neg h4, if_neg h5]
    rfl
  | _ => decide +kernel

theorem steps_name (hL : Laws cb F V B Rel) : ∀ (t : Bytes) (q : HParser) (hs : HState) (i n : Nat) (L x : Bytes) (s : σ), (∀ b ∈ t, TokenChar b) →
    NameInv hs i L → n + t.length ≤ maxHeaderSize → ∃ hs' i', NameInv hs' i' (L ++ t.map lower) ∧
    Steps cb Rel (at_ q .field hs i n) (F x s) t (at_ q .field hs' i' (n + t.length)) (F (x ++ t) s)
  | [], q, hs, i, n, L, x, s, _, hi, _ => ⟨hs, i, by simpa using hi, by simpa using Steps.nil hL _ _⟩
  | c :: t, q, hs, i, n, L, x, s, ht, hi, hn => by
    simp only [List.length_cons] at hn
    obtain ⟨h1, h2, h3, _⟩ := token_lower (ht c (by simp))
    obtain ⟨hs1, i1, hf, hi1⟩ := fieldChar_inv hi q (n + 1) (token c) c h3
    obtain ⟨hs2, i2, hi2, k⟩ := steps_name hL t q hs1 i1 (n + 1) _ (x ++ [c]) s (fun b hb => ht b (by simp [hb])) hi1 (by omega)
    have k0 : Steps cb Rel (at_ q .field hs i n) (F x s) [c] (at_ q .field hs1 i1 (n + 1)) (F (x ++ [c]) s) := by
      rw [hL.fieldApp]
      refine step_go hL (m1 := ⟨some [], none, none⟩) (by simp [at_]) (Or.inl (by simp only [at_]; omega)) ?_
      show (if token c ≠ 0 then Res.go (fieldChar (at_ q .field hs i (n + 1)) (token c) c) (F x s) _ 1 else _) = _
      rw [if_pos h2, hf]
      rfl
    refine ⟨hs2, i2, ?_, ?_⟩
    · rw [h1, List.append_assoc] at hi2; exact hi2
    · have := k0.trans hL k
      rw [show n + 1 + t.length = n + (c :: t).length by simp; omega, List.append_assoc] at this
      exact this

/-- A name at the beginning of a line. -/
theorem steps_field (hL : Laws cb F V B Rel) (t : Bytes) (q : HParser) (st : PState) (hst : st = .fieldStart ∨ st = .valueLws) (hs : HState) (i n : Nat) (s : σ)
    (h0 : t ≠ []) (ht : ∀ b ∈ t, TokenChar b) (hn : n + t.length ≤ maxHeaderSize) : ∃ hs' i', isSpecial hs' = kindOf (t.map lower) ∧
    Steps cb Rel (at_ q st hs i n) s t (at_ q .field hs' i' (n + t.length)) (F t s) := by
  obtain ⟨c, t, rfl⟩ := List.exists_cons_of_ne_nil h0
  simp only [List.length_cons] at hn
  obtain ⟨h1, h2, h3, h4, h5, h6⟩ := token_lower (ht c (by simp))
  have k0 : ∃ hs', NameInv hs' 0 [lower c] ∧ Steps cb Rel (at_ q st hs i n) s [c] (at_ q .field hs' 0 (n + 1)) (F [c] s) := by
    refine ⟨if token c = 99 then .c else if token c = 112 then .mProxyConnection else if token c = 116 then .mTransferEncoding
        else if token c = 117 then .mUpgrade else .general, ?_, ?_⟩
    · rw [h1]
      split
      · rename_i h; rw [h]; exact .c
      · split
        · rename_i h; rw [h]; exact .proxy 0 (by decide)
        · split
          · rename_i h; rw [h]; exact .te 0 (by decide)
          · split
            · rename_i h; rw [h]; exact .up 0 (by decide)
            · rename_i n1 n2 n3 n4
              refine .general 0 _ ?_
              intro N hN hp
              obtain ⟨t, e⟩ := hp
              rw [← e] at hN
              simp [knownNames] at hN
              rcases hN with h | h | h | h | h <;> simp_all
    · refine step_go hL (s1 := s) (m1 := ⟨some [], none, none⟩) ?_ (Or.inl (by simp only [at_]; omega)) ?_
      · rcases hst with rfl | rfl <;> simp [at_]
      · have key : doFieldStart cb (at_ q .fieldStart hs i (n + 1)) s {} c = .go (at_ q .field (if token c = 99 then .c else if token c = 112 then .mProxyConnection else if token c = 116 then .mTransferEncoding
            else if token c = 117 then .mUpgrade else .general) 0 (n + 1)) s ⟨some [], none, none⟩ 1 := by
          unfold doFieldStart
          rw [if_neg h5, if_neg h6]
          dsimp only
          rw [if_neg h2]
          rfl
        rcases hst with rfl | rfl
        · exact key
        · show (if c = 32 ∨ c = 9 then _ else doFieldStart cb (at_ q .fieldStart hs i (n + 1)) s {} c) = _
          rw [if_neg (by simp [h3, h4]), key]
  obtain ⟨hs1, hi1, k0⟩ := k0
  obtain ⟨hs2, i2, hi2, k1⟩ := steps_name hL t q hs1 0 (n + 1) [lower c] [c] s (fun b hb => ht b (by simp [hb])) hi1 (by omega)
  refine ⟨hs2, i2, nameInv_kind hi2, ?_⟩
  have := k0.trans hL k1
  rw [show n + 1 + t.length = n + (c :: t).length by simp; omega] at this
  exact this

end Pillow
