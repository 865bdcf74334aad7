import Verif.Lemmas.ReplyParser
import Verif.Props.Response
import Verif.Spec.Agree
import Verif.Lemmas.QtNumber
/-!
# The heads `HttpConnection` writes are heads of the response grammar
-/
namespace Pillow
open Spec

/-- A header as it is written. -/
def toR (h : Header) : RHeader := ⟨h.name, b!" ", h.value⟩

theorem toR_render (h : Header) : (toR h).render = lineOf h := by
  unfold toR RHeader.render lineOf; simp

theorem toR_lines (hs : Headers) : ((hs.map toR).map RHeader.render).flatten = (hs.map lineOf).flatten := by
  rw [List.map_map]; congr 1; apply List.map_congr_left; intro h _; exact toR_render h

theorem toR_shown (hs : Headers) : (hs.map toR).map RHeader.shown = hs := by
  rw [List.map_map]
  conv => rhs; rw [← List.map_id hs]
  apply List.map_congr_left; intro h _; rfl

theorem digits_len (k n : Nat) (h : n < 16 ^ (k + 1)) : (digits 16 n).length ≤ k + 1 := by
  induction k generalizing n with
  | zero => rw [digits_lt (by simpa using h)]; simp
  | succ k ih =>
    by_cases hn : n < 16
    · rw [digits_lt hn]; simp
    · rw [digits_ge (by decide) (by omega), List.length_append]
      have := ih (n / 16) (by rw [Nat.div_lt_iff_lt_mul (by decide), ← Nat.pow_succ]; exact h)
      simp; omega

theorem readNat_nonempty {b : Nat} {s : Bytes} {n : Nat} (h : readNat b s = some n) : s ≠ [] := by
  rintro rfl; simp [readNat] at h

theorem chunked_ne {w c r : Bytes} (h : Chunked w c r) : w ≠ [] := by
  cases h <;> simp

/-- The events of a chunked response are a chunked body. -/
theorem chunked_body : ∀ (b : List Ev) (c : Bytes), (∀ e ∈ b, (∃ bs, e = .recv bs) ∨ (∃ bs, e = .chunk bs ∧ bs.length < 2147483648) ∨ e = .lastChunk) →
    Chunked (wireOf b) c [] → ChunkedBody (wireOf b) c
  | [], c, _, h => by
    exact absurd rfl (chunked_ne h)
  | e :: b, c, he, h => by
    have hw : wireOf (e :: b) = e.wire ++ wireOf b := by simp [wireOf]
    have hb := fun x hx => he x (List.mem_cons_of_mem e hx)
    rw [hw] at h ⊢
    rcases he e (by simp) with ⟨bs, rfl⟩ | ⟨bs, rfl, hl⟩ | rfl
    · exact chunked_body b c hb h
    · have hcw : (Ev.chunk bs).wire = digits 16 bs.length ++ b!"\r\n" ++ bs ++ b!"\r\n" := by
        show chunkPrefix bs.length ++ bs ++ _ = _
        unfold chunkPrefix
        rw [appendNumber_eq _ _ _ _ (by omega)]
        simp [renderInt]
      have hd := readNat_digits 16 (by decide) (by decide) bs.length
      have hsz : (digits 16 bs.length).length ≤ 8 := digits_len 7 _ (by omega)
      rw [hcw] at h ⊢
      generalize hwr : digits 16 bs.length ++ b!"\r\n" ++ bs ++ b!"\r\n" ++ wireOf b = w at h
      generalize hz : ([] : Bytes) = z at h
      have hwr' : digits 16 bs.length ++ b!"\r\n" ++ (bs ++ b!"\r\n" ++ wireOf b) = w := by rw [← hwr]; simp
      cases h with
      | last size rest h0 =>
        rw [List.append_assoc (size ++ _)] at hwr'
        obtain ⟨e1, e2⟩ := hexCR _ _ _ _ _ _ hd h0 hwr'
        rw [← e1, hd, Option.some.injEq] at h0
        have hbs : bs = [] := List.eq_nil_of_length_eq_zero h0
        subst hbs hz
        have e2 : wireOf b = [] := by simpa using e2
        rw [← hwr, e2]
        have := ChunkedBody.last (digits 16 0) [] hd (Or.inl rfl) (by simp only [List.length_nil] at hsz ⊢; omega)
        simpa using this
      | chunk size data wire content rest h0 hne h2 =>
        have ea : size ++ b!"\r\n" ++ data ++ b!"\r\n" ++ wire = size ++ b!"\r\n" ++ (data ++ b!"\r\n" ++ wire) := by simp
        rw [ea] at hwr'
        obtain ⟨e1, e2⟩ := hexCR _ _ _ _ _ _ hd h0 hwr'
        rw [← e1, hd, Option.some.injEq] at h0
        rw [List.append_assoc, List.append_assoc] at e2
        obtain ⟨rfl, e3⟩ := List.append_inj e2 h0
        have e3 : wireOf b = wire := by simpa using e3
        subst hz e3
        have := ChunkedBody.chunk (digits 16 bs.length) [] bs (wireOf b) content hd hne (by omega) (Or.inl rfl) (by simp only [List.length_nil]; omega) (chunked_body b content hb h2)
        rw [← hwr]
        simpa using this
    · have hcw : Ev.lastChunk.wire = b!"0" ++ b!"\r\n" ++ b!"\r\n" := rfl
      rw [hcw] at h ⊢
      have hd : readNat 16 b!"0" = some 0 := by decide
      generalize hwr : b!"0" ++ b!"\r\n" ++ b!"\r\n" ++ wireOf b = w at h
      generalize hz : ([] : Bytes) = z at h
      rw [List.append_assoc] at hwr
      cases h with
      | last size rest h0 =>
        rw [List.append_assoc (size ++ _)] at hwr
        obtain ⟨e1, e2⟩ := hexCR _ _ _ _ _ _ hd h0 hwr
        subst hz e1
        have e2 : wireOf b = [] := by simpa using e2
        rw [e2] at hwr
        have := ChunkedBody.last b!"0" [] hd (Or.inl rfl) (by decide)
        simpa using this
      | chunk size data wire content rest h0 hne h2 =>
        have ea : size ++ b!"\r\n" ++ data ++ b!"\r\n" ++ wire = size ++ b!"\r\n" ++ (data ++ b!"\r\n" ++ wire) := by simp
        rw [ea] at hwr
        obtain ⟨e1, e2⟩ := hexCR _ _ _ _ _ _ hd h0 hwr
        rw [← e1, hd, Option.some.injEq] at h0
        exact absurd (List.eq_nil_of_length_eq_zero h0.symm) hne

/-! ## The head -/

theorem lastHeader_mem {hs : Headers} {n : Bytes} {h : Header} (e : lastHeader hs n = some h) : h ∈ hs ∧ SameCI h.name n := by
  have := List.mem_of_getLast? e
  rw [List.mem_filter] at this
  simpa using this

/-- The head as a head of the grammar. -/
def sentHead (r : ReqView) (maj min code reason : Bytes) (hs : Headers) (len : Option Bytes) (keep chunked : Bool) : RHead :=
  { major := maj, minor := min, status := code, reason := b!" " ++ reason, headers := (sentHeaders r hs len keep chunked).map toR }

theorem sent_render {r : ReqView} {maj min code reason : Bytes} (hs : Headers) (len : Int) (lt : Option Bytes) (keep chunked : Bool)
    (hv : r.version = b!"HTTP/" ++ maj ++ b!"." ++ min) (hl : lt = if len = -1 then none else some (renderInt 10 len)) (h0 : -1 ≤ len) :
    (sentHead r maj min code reason hs lt keep chunked).render = r.version ++ b!" " ++ code ++ b!" " ++ reason ++ b!"\r\n" ++ otherLines hs ++
      (if len = -1 then [] else b!"Content-Length: " ++ renderInt 10 len ++ b!"\r\n") ++ typeHeader hs len ++ connectionHeader r keep ++ encodingHeader hs chunked ++ b!"\r\n" := by
  have hlen : (lt ≠ none ∧ lt ≠ some b!"0") ↔ 0 < len := by
    rw [hl]
    by_cases h1 : len = -1
    · simp [h1]
    · rw [if_neg h1]
      have hr := (readInt_renderInt 10 (by decide) (by decide) len).1
      constructor
      · rintro ⟨-, h2⟩
        have h3 : len ≠ 0 := by rintro rfl; exact h2 (by decide +kernel)
        omega
      · intro h2
        refine ⟨by simp, fun h3 => ?_⟩
        rw [Option.some.injEq] at h3
        rw [h3] at hr
        have hr : (some 0 : Option Int) = some len := hr
        rw [Option.some.injEq] at hr
        omega
  have k1 : ((lengthPart lt).map lineOf).flatten = (if len = -1 then [] else b!"Content-Length: " ++ renderInt 10 len ++ b!"\r\n") := by
    rw [hl]
    by_cases h1 : len = -1
    · simp [h1, lengthPart]
    · simp [h1, lineOf, lengthPart]
  have k2 : ((typePart hs lt).map lineOf).flatten = typeHeader hs len := by
    unfold typeHeader typePart
    cases lastHeader hs b!"content-type" with
    | some t => simp
    | none =>
      dsimp only
      by_cases h1 : 0 < len
      · rw [if_pos (hlen.2 h1), if_pos h1]; rfl
      · rw [if_neg (fun e => h1 (hlen.1 e)), if_neg h1]; rfl
  have k3 : ((connectionPart r keep).map lineOf).flatten = connectionHeader r keep := by
    unfold connectionHeader connectionPart
    split
    · split <;> rfl
    · rfl
  have k4 : ((encodingPart hs chunked).map lineOf).flatten = encodingHeader hs chunked := by
    unfold encodingHeader encodingPart
    cases lastHeader hs b!"transfer-encoding" with
    | some t => dsimp only; split <;> simp
    | none => rfl
  unfold RHead.render sentHead
  dsimp only
  rw [toR_lines]
  unfold sentHeaders
  simp only [List.map_append, List.flatten_append]
  rw [k1, k2, k3, k4, hv]
  unfold otherLines
  simp

theorem mem_sent {r : ReqView} {hs : Headers} {len : Option Bytes} {keep chunked : Bool} {x : Header} (h : x ∈ sentHeaders r hs len keep chunked) :
    (x ∈ hs ∧ (¬ Special x ∨ SameCI x.name b!"content-type" ∨ (SameCI x.name b!"transfer-encoding" ∧ (SameCI x.value b!"chunked" → chunked = true)))) ∨
    (∃ l, len = some l ∧ x = ⟨b!"Content-Length", l⟩) ∨ x = ⟨b!"Content-Type", b!"text/plain"⟩ ∨ x = ⟨b!"Connection", b!"keep-alive"⟩ ∨ x = ⟨b!"Connection", b!"close"⟩ := by
  unfold sentHeaders at h
  simp only [List.mem_append] at h
  rcases h with (((h | h) | h) | h) | h
  · rw [List.mem_filter] at h
    exact Or.inl ⟨h.1, Or.inl (by simpa using h.2)⟩
  · cases len with
    | none => simp [lengthPart] at h
    | some l => simp [lengthPart] at h; exact Or.inr (Or.inl ⟨l, rfl, h⟩)
  · unfold typePart at h
    cases ht : lastHeader hs b!"content-type" with
    | some t =>
      rw [ht] at h
      simp only [List.mem_singleton] at h
      subst h
      exact Or.inl ⟨(lastHeader_mem ht).1, Or.inr (Or.inl (lastHeader_mem ht).2)⟩
    | none =>
      rw [ht] at h
      dsimp only at h
      split at h
      · simp at h; simp [h]
      · simp at h
  · unfold connectionPart at h
    split at h
    · split at h
      · simp at h
      · simp at h; simp [h]
    · simp at h; simp [h]
  · unfold encodingPart at h
    cases ht : lastHeader hs b!"transfer-encoding" with
    | some t =>
      rw [ht] at h
      dsimp only at h
      split at h
      · simp at h
      · rename_i hc
        simp only [List.mem_singleton] at h
        subst h
        refine Or.inl ⟨(lastHeader_mem ht).1, Or.inr (Or.inr ⟨(lastHeader_mem ht).2, fun hk => ?_⟩)⟩
        cases chunked with
        | true => rfl
        | false => exact absurd ⟨hk, rfl⟩ hc
    | none => rw [ht] at h; simp at h

theorem not_cl_te {n : Bytes} (h : SameCI n b!"transfer-encoding") : ¬ SameCI n b!"content-length" :=
  fun h' => absurd (h.symm.trans h') (by decide)

theorem not_cl_ct {n : Bytes} (h : SameCI n b!"content-type") : ¬ SameCI n b!"content-length" :=
  fun h' => absurd (h.symm.trans h') (by decide)

theorem lengths_append (a b : List RHeader) : ((a ++ b).filter fun x => decide (SameCI x.name b!"content-length" ∧ x.value ≠ [])).map RHeader.value =
    ((a.filter fun x => decide (SameCI x.name b!"content-length" ∧ x.value ≠ [])).map RHeader.value) ++
    ((b.filter fun x => decide (SameCI x.name b!"content-length" ∧ x.value ≠ [])).map RHeader.value) := by
  simp

theorem lengths_none (a : Headers) (h : ∀ x ∈ a, ¬ SameCI x.name b!"content-length") :
    (((a.map toR).filter fun x => decide (SameCI x.name b!"content-length" ∧ x.value ≠ [])).map RHeader.value) = [] := by
  rw [List.map_eq_nil_iff, List.filter_eq_nil_iff]
  intro x hx
  obtain ⟨y, hy, rfl⟩ := List.mem_map.1 hx
  have := h y hy
  simp only [decide_eq_true_eq, not_and]
  exact fun e => absurd e this

theorem sent_lengths (r : ReqView) (maj min code reason : Bytes) (hs : Headers) (len : Option Bytes) (keep chunked : Bool) (hl : ∀ l, len = some l → l ≠ []) :
    (sentHead r maj min code reason hs len keep chunked).lengths = len.toList := by
  unfold RHead.lengths sentHead sentHeaders
  dsimp only
  simp only [List.map_append]
  rw [lengths_append, lengths_append, lengths_append, lengths_append]
  rw [lengths_none _ (by
    intro x hx
    rw [List.mem_filter] at hx
    have : ¬ Special x := by simpa using hx.2
    exact fun e => this (Or.inl e))]
  rw [lengths_none (typePart hs len) (by
    intro x hx
    unfold typePart at hx
    cases ht : lastHeader hs b!"content-type" with
    | some t =>
      rw [ht] at hx
      simp only [List.mem_singleton] at hx
      subst hx
      exact not_cl_ct (lastHeader_mem ht).2
    | none =>
      rw [ht] at hx
      dsimp only at hx
      split at hx
      · simp only [List.mem_singleton] at hx; subst hx; decide
      · simp at hx)]
  rw [lengths_none (connectionPart r keep) (by
    intro x hx
    unfold connectionPart at hx
    split at hx
    · split at hx
      · simp at hx
      · simp only [List.mem_singleton] at hx; subst hx; decide
    · simp only [List.mem_singleton] at hx; subst hx; decide)]
  rw [lengths_none (encodingPart hs chunked) (by
    intro x hx
    unfold encodingPart at hx
    cases ht : lastHeader hs b!"transfer-encoding" with
    | some t =>
      rw [ht] at hx
      dsimp only at hx
      split at hx
      · simp at hx
      · simp only [List.mem_singleton] at hx
        subst hx
        exact not_cl_te (lastHeader_mem ht).2
    | none => rw [ht] at hx; simp at hx)]
  cases len with
  | none => rfl
  | some l =>
    have := hl l rfl
    have e : (((lengthPart (some l)).map toR).filter fun x => decide (SameCI x.name b!"content-length" ∧ x.value ≠ [])) = [toR ⟨b!"Content-Length", l⟩] := by
      unfold lengthPart
      rw [List.map_singleton, List.filter_cons_of_pos]
      · rfl
      · rw [decide_eq_true_eq]
        exact ⟨show SameCI b!"Content-Length" b!"content-length" by decide, this⟩
    rw [e]
    rfl

theorem sent_chunked {r : ReqView} {maj min code reason : Bytes} {hs : Headers} {len : Option Bytes} {keep chunked : Bool} (hp : ∀ x ∈ hs, PlainHeader x)
    (hc : chunked = true → HandlerChunks hs) : (sentHead r maj min code reason hs len keep chunked).IsChunked ↔ chunked = true := by
  unfold RHead.IsChunked sentHead
  dsimp only
  constructor
  · rintro ⟨x, hx, h1, h2⟩
    obtain ⟨y, hy, rfl⟩ := List.mem_map.1 hx
    have h1 : SameCI y.name b!"transfer-encoding" := h1
    have h2 : Says y.value b!"chunked" := h2
    rcases mem_sent hy with ⟨hm, h3 | h3 | ⟨_, h3⟩⟩ | ⟨l, rfl, rfl⟩ | rfl | rfl | rfl
    · exact absurd (Or.inr (Or.inr (Or.inr h1))) h3
    · exact absurd (h1.symm.trans h3) (by decide)
    · exact h3 ((hp y hm).encoding h1 h2)
    · exact absurd (show SameCI b!"Content-Length" b!"transfer-encoding" from h1) (by decide)
    all_goals exact absurd h1 (by decide)
  · intro h
    obtain ⟨t, ht, hv⟩ := hc h
    refine ⟨toR t, List.mem_map.2 ⟨t, ?_, rfl⟩, (lastHeader_mem ht).2, 0, by rw [List.replicate_zero, List.append_nil]; exact hv⟩
    unfold sentHeaders encodingPart
    rw [ht]
    simp [h]

theorem sent_announced (r : ReqView) (maj min code reason : Bytes) (hs : Headers) (len : Option Bytes) (keep chunked : Bool) (hl : ∀ l, len = some l → l ≠ []) :
    (sentHead r maj min code reason hs len keep chunked).announced = len.map num := by
  unfold RHead.announced
  rw [sent_lengths _ _ _ _ _ _ _ _ _ hl]
  cases len <;> rfl

theorem mem_digits {n : Nat} {b : Byte} (h : b ∈ digits 10 n) : TextChar b ∧ b ≠ 32 ∧ b ≠ 9 := by
  have := digits_isDigit n b h
  have key : ∀ b : Byte, isDigit b = true → TextChar b ∧ b ≠ 32 ∧ b ≠ 9 := by
    unfold TextChar
    apply byte_forall; decide +kernel
  exact key b this

theorem sent_wf {r : ReqView} {maj min code reason : Bytes} {hs : Headers} {n : Option Nat} {keep chunked : Bool} (hp : ∀ x ∈ hs, PlainHeader x)
    (h1 : Small maj) (h2 : Small min) (h3 : Small code) (h4 : ∀ b ∈ reason, TextChar b) (h5 : ∀ k, n = some k → k < 2147483648)
    (h6 : (sentHead r maj min code reason hs (n.map (digits 10)) keep chunked).render.length ≤ 80 * 1024 - 2) :
    (sentHead r maj min code reason hs (n.map (digits 10)) keep chunked).Wf where
  major := h1
  minor := h2
  status := h3
  reason := Or.inr ⟨reason, rfl, h4⟩
  headers := by
    intro x hx
    obtain ⟨y, hy, rfl⟩ := List.mem_map.1 hx
    have key : PlainHeader y ∨ (∃ k, y = ⟨b!"Content-Length", digits 10 k⟩) ∨ y = ⟨b!"Content-Type", b!"text/plain"⟩ ∨ y = ⟨b!"Connection", b!"keep-alive"⟩ ∨ y = ⟨b!"Connection", b!"close"⟩ := by
      rcases mem_sent hy with ⟨hm, _⟩ | ⟨l, hl, rfl⟩ | h | h | h
      · exact Or.inl (hp y hm)
      · cases n with
        | none => cases hl
        | some k => simp at hl; exact Or.inr (Or.inl ⟨k, by rw [← hl]⟩)
      · exact Or.inr (Or.inr (Or.inl h))
      · exact Or.inr (Or.inr (Or.inr (Or.inl h)))
      · exact Or.inr (Or.inr (Or.inr (Or.inr h)))
    have hpad : ∀ b ∈ (toR y).pad, b = 32 ∨ b = 9 := by intro b hb; have hb : b ∈ b!" " := hb; simp at hb; exact Or.inl hb
    have text : ∀ s : Bytes, s.all (fun b => b != 13 && b != 10) = true → ∀ b ∈ s, TextChar b := by
      intro s h b hb
      have := List.all_eq_true.1 h b hb
      simpa [TextChar] using this
    rcases key with h | ⟨k, rfl⟩ | rfl | rfl | rfl
    · exact ⟨h.name, hpad, h.value⟩
    · refine ⟨⟨by simp [toR], show ∀ b ∈ b!"Content-Length", TokenChar b by decide +kernel⟩, hpad, fun b hb => (mem_digits hb).1, fun e => ?_, fun e => ?_⟩
      · exact (mem_digits (List.mem_of_head? e)).2.1 rfl
      · exact (mem_digits (List.mem_of_head? e)).2.2 rfl
    · exact ⟨⟨by simp [toR], by unfold toR; decide +kernel⟩, hpad, text _ (by decide +kernel), by decide, by decide⟩
    · exact ⟨⟨by simp [toR], by unfold toR; decide +kernel⟩, hpad, text _ (by decide +kernel), by decide, by decide⟩
    · exact ⟨⟨by simp [toR], by unfold toR; decide +kernel⟩, hpad, text _ (by decide +kernel), by decide, by decide⟩
  lengths := by
    rw [sent_lengths]
    · intro v hv
      cases n with
      | none => simp at hv
      | some k =>
        simp at hv
        subst hv
        have := h5 k rfl
        exact ⟨k, readNat_digits 10 (by decide) (by decide) k, by omega⟩
    · intro l hl
      cases n with
      | none => cases hl
      | some k => simp at hl; rw [← hl]; exact digits_ne_nil _ _
  noUpgrade := by
    intro x hx hu
    obtain ⟨y, hy, rfl⟩ := List.mem_map.1 hx
    have hu : SameCI y.name b!"upgrade" := hu
    rcases mem_sent hy with ⟨hm, _⟩ | ⟨l, hl, rfl⟩ | rfl | rfl | rfl
    · exact absurd hu (hp y hm).upgrade
    · exact absurd (show SameCI b!"Content-Length" b!"upgrade" from hu) (by decide)
    all_goals exact absurd hu (by decide)
  size := h6

end Pillow
