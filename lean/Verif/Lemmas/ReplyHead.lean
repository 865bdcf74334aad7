import Verif.Lemmas.ReplyValue
/-!
# The head of a response
-/
namespace Pillow
open Spec
variable {σ : Type} {cb : CB σ} {F V B : Bytes → σ → σ} {Rel : σ → σ → Prop}

theorem says_iff (v t : Bytes) : Says v t ↔ SameCI v (t ++ List.replicate (v.length - t.length) 32) := by
  refine ⟨fun ⟨k, h⟩ => ?_, fun h => ⟨_, h⟩⟩
  have : v.length - t.length = k := by
    have := congrArg List.length h
    simp at this
    omega
  rw [this]; exact h

instance (v t : Bytes) : Decidable (Says v t) := decidable_of_iff _ (says_iff v t).symm

/-- What a header changes in the parser. -/
def upd (q : HParser) (h : RHeader) : HParser :=
  { q with
    fChunked := q.fChunked || decide (SameCI h.name b!"transfer-encoding" ∧ Says h.value b!"chunked")
    fKeepAlive := q.fKeepAlive || decide ((SameCI h.name b!"connection" ∨ SameCI h.name b!"proxy-connection") ∧ Says h.value b!"keep-alive")
    fClose := q.fClose || decide ((SameCI h.name b!"connection" ∨ SameCI h.name b!"proxy-connection") ∧ Says h.value b!"close")
    contentLength := if SameCI h.name b!"content-length" ∧ h.value ≠ [] then num h.value else q.contentLength }

theorem sameCI_lower {a b : Bytes} (h : b.map lower = b) : SameCI a b ↔ a.map lower = b := by unfold SameCI; rw [h]

theorem says_nil {N : Bytes} (h : N ≠ []) : ¬ Says [] N := by
  rintro ⟨k, h'⟩
  unfold SameCI at h'
  have := congrArg List.length h'
  simp at this
  exact h (List.length_eq_zero_iff.1 (by omega))

/-- The first character decides. -/
theorem says_head {c : Byte} {t : Bytes} {N : Bytes} (h : Says (c :: t) N) (hN : N ≠ []) : N.head?.map lower = some (lower c) := by
  obtain ⟨k, h⟩ := h
  obtain ⟨x, N, rfl⟩ := List.exists_cons_of_ne_nil hN
  unfold SameCI at h
  simp at h
  simp [h.1]

theorem upd_of (q : HParser) (h : RHeader) (a b c : Bool) (l : Nat) (h1 : a = true ↔ (SameCI h.name b!"transfer-encoding" ∧ Says h.value b!"chunked"))
    (h2 : b = true ↔ ((SameCI h.name b!"connection" ∨ SameCI h.name b!"proxy-connection") ∧ Says h.value b!"keep-alive"))
    (h3 : c = true ↔ ((SameCI h.name b!"connection" ∨ SameCI h.name b!"proxy-connection") ∧ Says h.value b!"close"))
    (h4 : (if SameCI h.name b!"content-length" ∧ h.value ≠ [] then num h.value else q.contentLength) = l) :
    upd q h = { q with fChunked := q.fChunked || a, fKeepAlive := q.fKeepAlive || b, fClose := q.fClose || c, contentLength := l } := by
  unfold upd
  have e1 : decide (SameCI h.name b!"transfer-encoding" ∧ Says h.value b!"chunked") = a := by rw [Bool.eq_iff_iff]; simp [h1]
  have e2 : decide ((SameCI h.name b!"connection" ∨ SameCI h.name b!"proxy-connection") ∧ Says h.value b!"keep-alive") = b := by rw [Bool.eq_iff_iff]; simp [h2]
  have e3 : decide ((SameCI h.name b!"connection" ∨ SameCI h.name b!"proxy-connection") ∧ Says h.value b!"close") = c := by rw [Bool.eq_iff_iff]; simp [h3]
  rw [e1, e2, e3, h4]

theorem upd_same {q : HParser} {h : RHeader} (h1 : SameCI h.name b!"transfer-encoding" → ¬ Says h.value b!"chunked")
    (h2 : (SameCI h.name b!"connection" ∨ SameCI h.name b!"proxy-connection") → ¬ Says h.value b!"keep-alive" ∧ ¬ Says h.value b!"close")
    (h3 : SameCI h.name b!"content-length" → h.value = []) : upd q h = q := by
  rw [upd_of q h false false false q.contentLength ⟨fun h => (by cases h), fun h => absurd h.2 (h1 h.1)⟩
    ⟨fun h => (by cases h), fun h => absurd h.2 (h2 h.1).1⟩ ⟨fun h => (by cases h), fun h => absurd h.2 (h2 h.1).2⟩ (if_neg (fun h => h.2 (h3 h.1)))]
  simp

/-- The value of a header, from its first character to the end of the line. -/
theorem steps_value (hL : Laws cb F V B Rel) (h : RHeader) (hw : h.Wf)
    (hlen : SameCI h.name b!"content-length" → h.value ≠ [] → ∃ n, readNat 10 h.value = some n ∧ n < ullMax)
    (hup : SameCI h.name b!"upgrade" → h.value = []) (q : HParser) (he : q.errno = .ok) (hs1 : HState) (i1 n1 : Nat) (hk : isSpecial hs1 = kindOf (h.name.map lower))
    (s1 : σ) (hv : h.value ≠ []) (hn : n1 + h.value.length ≤ maxHeaderSize) : ∃ q1 hs' i', q1.errno = .ok ∧ lineDone hs' q1 = upd q h ∧ Steps cb Rel (at_ q .valueStart hs1 i1 n1) s1 h.value (at_ q1 .value hs' i' (n1 + h.value.length)) (V h.value s1) := by
  have l1 : SameCI h.name b!"connection" ↔ h.name.map lower = b!"connection" := sameCI_lower (by decide)
  have l2 : SameCI h.name b!"proxy-connection" ↔ h.name.map lower = b!"proxy-connection" := sameCI_lower (by decide)
  have l3 : SameCI h.name b!"content-length" ↔ h.name.map lower = b!"content-length" := sameCI_lower (by decide)
  have l4 : SameCI h.name b!"transfer-encoding" ↔ h.name.map lower = b!"transfer-encoding" := sameCI_lower (by decide)
  have l5 : SameCI h.name b!"upgrade" ↔ h.name.map lower = b!"upgrade" := sameCI_lower (by decide)
  obtain ⟨c, t, hct⟩ := List.exists_cons_of_ne_nil hv
  have hvw := hw.value
  rw [hct] at hvw
  have htext : ∀ b ∈ t, TextChar b := fun b hb => hvw.1 b (by simp [hb])
  have hc : TextChar c ∧ c ≠ 32 ∧ c ≠ 9 := ⟨hvw.1 c (by simp), by simpa using hvw.2⟩
  have hlt : n1 + t.length + 1 ≤ maxHeaderSize := by
    have : h.value.length = t.length + 1 := by rw [hct]; rfl
    omega
  have evl : n1 + h.value.length = n1 + 1 + t.length := by rw [hct]; simp only [List.length_cons]; omega
  -- the parser takes no interest in the value
  have plain : Steps cb Rel (at_ q .valueStart hs1 i1 n1) s1 [c] (at_ q .value .general 0 (n1 + 1)) (V [c] s1) →
      upd q h = q → ∃ q1 hs' i', q1.errno = .ok ∧ lineDone hs' q1 = upd q h ∧ Steps cb Rel (at_ q .valueStart hs1 i1 n1) s1 h.value (at_ q1 .value hs' i' (n1 + h.value.length)) (V h.value s1) := by
    intro k hu
    have k2 := steps_general hL t q 0 (n1 + 1) [c] s1 htext (by omega)
    have := k.trans hL k2
    rw [hu, evl, hct]
    exact ⟨q, .general, 0, he, rfl, this⟩
  -- the value is compared with a token
  have token : ∀ (N : Bytes) (ms f : HState), TokenFor N ms f → lower c ∈ N.head? →
      Steps cb Rel (at_ q .valueStart hs1 i1 n1) s1 [c] (at_ q .value ms 0 (n1 + 1)) (V [c] s1) →
      upd q h = (if Says h.value N then lineDone f q else q) → ∃ q1 hs' i', q1.errno = .ok ∧ lineDone hs' q1 = upd q h ∧ Steps cb Rel (at_ q .valueStart hs1 i1 n1) s1 h.value (at_ q1 .value hs' i' (n1 + h.value.length)) (V h.value s1) := by
    intro N ms f hN hc1 k hu
    have hv0 : ValInv N ms f ms 0 [c] := by
      refine Or.inl ⟨rfl, ?_, ?_⟩
      · rcases hN with ⟨rfl, -, -⟩ | ⟨rfl, -, -⟩ | ⟨rfl, -, -⟩ <;> decide
      · rcases hN with ⟨rfl, -, -⟩ | ⟨rfl, -, -⟩ | ⟨rfl, -, -⟩ <;> simp at hc1 ⊢ <;> exact hc1.symm
    obtain ⟨hs2, i2, hi2, k2⟩ := steps_token hL hN t q ms 0 (n1 + 1) [c] s1 htext hv0 (by omega)
    have := k.trans hL k2
    obtain ⟨g1, g2⟩ := valInv_says hN hi2
    rw [show [c] ++ t = h.value by rw [hct]; rfl] at g1 this
    have hq : lineDone hs2 q = upd q h := by
      rw [hu]
      by_cases hsy : Says h.value N
      · rw [if_pos hsy, g1.2 hsy]
      · rw [if_neg hsy]
        have hf : hs2 ≠ f := fun e => hsy (g1.1 e)
        rcases hN with ⟨-, rfl, rfl⟩ | ⟨-, rfl, rfl⟩ | ⟨-, rfl, rfl⟩ <;> rcases g2 with rfl | rfl | rfl <;> first | rfl | exact absurd rfl hf
    rw [evl]
    refine ⟨q, hs2, i2, he, hq, ?_⟩
    rw [hct] at this ⊢
    exact this
  have first := step_first hL q
  unfold kindOf at hk
  split at hk
  · -- Connection
    rename_i hnm
    have hte : ¬ SameCI h.name b!"transfer-encoding" := by rw [l4]; rcases hnm with h | h <;> rw [h] <;> decide
    have hcl : ¬ SameCI h.name b!"content-length" := by rw [l3]; rcases hnm with h | h <;> rw [h] <;> decide
    have hcn : SameCI h.name b!"connection" ∨ SameCI h.name b!"proxy-connection" := by rw [l1, l2]; exact hnm
    have hs1e : hs1 = .connection := by cases hs1 <;> simp [isSpecial] at hk; rfl
    have k := first q hs1 (if lowerC c = 107 then .mKeepAlive else if lowerC c = 99 then .mClose else .general) i1 n1 s1 c (by omega) hc (by rw [hs1e])
    by_cases h107 : lowerC c = 107
    · rw [if_pos h107] at k
      have hl := (lowerC_lower c hc.1.1 107 (by decide)).1 h107
      refine token b!"keep-alive" .mKeepAlive .keepAlive (Or.inr (Or.inl ⟨rfl, rfl, rfl⟩)) (by rw [hl]; rfl) k ?_
      have hncl : ¬ Says h.value b!"close" := by
        intro hsy; rw [hct] at hsy; have := says_head hsy (by simp); rw [hl] at this; revert this; decide
      rw [upd_of q h false (decide (Says h.value b!"keep-alive")) false q.contentLength (by simp [hte]) (by simp [hcn]) (by simp [hncl]) (if_neg (fun h => hcl h.1))]
      by_cases hsy : Says h.value b!"keep-alive"
      · rw [if_pos hsy, decide_eq_true hsy]; simp [lineDone]
      · rw [if_neg hsy, decide_eq_false hsy]; simp
    · rw [if_neg h107] at k
      have hnk : ¬ Says h.value b!"keep-alive" := by
        intro hsy; rw [hct] at hsy; have := says_head hsy (by simp)
        exact h107 ((lowerC_lower c hc.1.1 107 (by decide)).2 (Option.some.inj this).symm)
      by_cases h99 : lowerC c = 99
      · rw [if_pos h99] at k
        have hl := (lowerC_lower c hc.1.1 99 (by decide)).1 h99
        refine token b!"close" .mClose .close (Or.inr (Or.inr ⟨rfl, rfl, rfl⟩)) (by rw [hl]; rfl) k ?_
        rw [upd_of q h false false (decide (Says h.value b!"close")) q.contentLength (by simp [hte]) (by simp [hnk]) (by simp [hcn]) (if_neg (fun h => hcl h.1))]
        by_cases hsy : Says h.value b!"close"
        · rw [if_pos hsy, decide_eq_true hsy]; simp [lineDone]
        · rw [if_neg hsy, decide_eq_false hsy]; simp
      · rw [if_neg h99] at k
        refine plain k (upd_same (fun h => absurd h hte) (fun _ => ⟨hnk, ?_⟩) (fun h => absurd h hcl))
        intro hsy; rw [hct] at hsy; have := says_head hsy (by simp)
        exact h99 ((lowerC_lower c hc.1.1 99 (by decide)).2 (Option.some.inj this).symm)
  · rename_i hnm
    have hcn : ¬ (SameCI h.name b!"connection" ∨ SameCI h.name b!"proxy-connection") := by rw [l1, l2]; exact hnm
    split at hk
    · -- Content-Length
      rename_i hnm2
      have hcl := l3.2 hnm2
      have hte : ¬ SameCI h.name b!"transfer-encoding" := by rw [l4, hnm2]; decide
      have hs1e : hs1 = .contentLength := by cases hs1 <;> simp [isSpecial] at hk; rfl
      obtain ⟨m, hm, hml⟩ := hlen hcl hv
      obtain ⟨-, hdig, hdec⟩ := readNat_dec hm
      rw [hct] at hdig hdec
      rw [dec_cons, Nat.zero_mul, Nat.zero_add] at hdec
      have hcd := hdig c (by simp)
      have k := first { q with contentLength := c.toNat - 48 } hs1 .contentLength i1 n1 s1 c (by omega) hc (by rw [hs1e, hcd]; rfl)
      have k2 := steps_length hL t { q with contentLength := c.toNat - 48 } 0 (n1 + 1) [c] s1 (fun x hx => hdig x (by simp [hx])) (by dsimp only; omega) (by omega)
      have := k.trans hL k2
      have hu : upd q h = { q with contentLength := dec (c.toNat - 48) t } := by
        rw [upd_of q h false false false m (by simp [hte]) (by simp [hcn]) (by simp [hcn]) (by rw [if_pos ⟨hcl, hv⟩, num_eq hm]), hdec]
        simp
      refine ⟨{ q with contentLength := dec (c.toNat - 48) t }, .contentLength, 0, he, ?_, ?_⟩
      · rw [hu]; rfl
      · rw [evl, hct]; exact this
    · rename_i hnm2
      have hcl : ¬ SameCI h.name b!"content-length" := fun e => hnm2 (l3.1 e)
      split at hk
      · -- Transfer-Encoding
        rename_i hnm3
        have hte := l4.2 hnm3
        have hs1e : hs1 = .transferEncoding := by cases hs1 <;> simp [isSpecial] at hk; rfl
        have k := first q hs1 (if lowerC c = 99 then .mChunked else .general) i1 n1 s1 c (by omega) hc (by rw [hs1e])
        by_cases h99 : lowerC c = 99
        · rw [if_pos h99] at k
          have hl := (lowerC_lower c hc.1.1 99 (by decide)).1 h99
          refine token b!"chunked" .mChunked .chunked (Or.inl ⟨rfl, rfl, rfl⟩) (by rw [hl]; rfl) k ?_
          rw [upd_of q h (decide (Says h.value b!"chunked")) false false q.contentLength (by simp [hte]) (by simp [hcn]) (by simp [hcn]) (if_neg (fun h => hcl h.1))]
          by_cases hsy : Says h.value b!"chunked"
          · rw [if_pos hsy, decide_eq_true hsy]; simp [lineDone]
          · rw [if_neg hsy, decide_eq_false hsy]; simp
        · rw [if_neg h99] at k
          refine plain k (upd_same (fun _ hsy => ?_) (fun h => absurd h hcn) (fun h => absurd h hcl))
          rw [hct] at hsy; have := says_head hsy (by simp)
          exact h99 ((lowerC_lower c hc.1.1 99 (by decide)).2 (Option.some.inj this).symm)
      · rename_i hnm3
        have hte : ¬ SameCI h.name b!"transfer-encoding" := fun e => hnm3 (l4.1 e)
        split at hk
        · rename_i hnm4
          exact absurd (hup (l5.2 hnm4)) hv
        · have k := first q hs1 .general i1 n1 s1 c (by omega) hc (by cases hs1 <;> first | rfl | (simp [isSpecial] at hk))
          exact plain k (upd_same (fun h => absurd h hte) (fun h => absurd h hcn) (fun h => absurd h hcl))

theorem steps_header (hL : Laws cb F V B Rel) (h : RHeader) (hw : h.Wf)
    (hlen : SameCI h.name b!"content-length" → h.value ≠ [] → ∃ n, readNat 10 h.value = some n ∧ n < ullMax)
    (hup : SameCI h.name b!"upgrade" → h.value = []) (q : HParser) (he : q.errno = .ok) (st : PState) (hst : st = .fieldStart ∨ st = .valueLws) (hs : HState) (i n : Nat)
    (s : σ) (hn : n + h.render.length ≤ maxHeaderSize) : ∃ hs' i', Steps cb Rel (at_ q st hs i n) s h.render
      (at_ (upd q h) .valueLws hs' i' (n + h.render.length)) (V h.value (F h.name s)) := by
  have el : h.render.length = h.name.length + 1 + h.pad.length + h.value.length + 2 := by
    unfold RHeader.render; simp only [List.length_append, List.length_cons, List.length_nil]
  rw [el] at hn ⊢
  obtain ⟨hs1, i1, hk, k1⟩ := steps_field hL h.name q st hst hs i n s hw.name.1 hw.name.2 (by omega)
  have k2 := steps_colon hL q he hs1 i1 (n + h.name.length) h.name s (by omega)
  have k3 := steps_pad hL h.pad q hs1 i1 (n + h.name.length + 1) (F h.name s) hw.pad (by omega)
  have k0 := (k1.trans hL k2).trans hL k3
  clear k1 k2 k3
  generalize hs : F h.name s = s1 at *
  generalize hn1 : n + h.name.length + 1 + h.pad.length = n1 at *
  -- what remains is the value
  suffices ∃ hs' i', Steps cb Rel (at_ q .valueStart hs1 i1 n1) s1 (h.value ++ b!"\r\n") (at_ (upd q h) .valueLws hs' i' (n1 + h.value.length + 2)) (V h.value s1) by
    obtain ⟨hs', i', k⟩ := this
    refine ⟨hs', i', ?_⟩
    have := k0.trans hL k
    rw [show h.name ++ b!":" ++ h.pad ++ (h.value ++ b!"\r\n") = h.render by unfold RHeader.render; simp,
      show n1 + h.value.length + 2 = n + (h.name.length + 1 + h.pad.length + h.value.length + 2) by omega] at this
    exact this
  by_cases hv : h.value = []
  · rw [upd_same (fun _ => by rw [hv]; exact says_nil (by simp)) (fun _ => by rw [hv]; exact ⟨says_nil (by simp), says_nil (by simp)⟩) (fun _ => hv), hv]
    exact ⟨.general, 0, steps_empty hL q he hs1 i1 n1 s1 (by omega)⟩
  obtain ⟨q1, hs2, i2, e1, e2, k⟩ := steps_value hL h hw hlen hup q he hs1 i1 n1 hk s1 hv (by omega)
  have k3 := steps_eol hL q1 e1 hs2 i2 (n1 + h.value.length) h.value s1 (by omega)
  rw [e2] at k3
  exact ⟨hs2, i2, k.trans hL k3⟩

end Pillow
