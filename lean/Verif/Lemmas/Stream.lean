import Verif.Lemmas.Parse
import Verif.Lemmas.ConnPure
set_option linter.unusedSimpArgs false
/-!
# Request streams: appending, uniqueness, exclusivity of the outcomes
-/
namespace Pillow
open Spec

theorem Requests.append_rest {s rest : Bytes} {reqs : List (ReqHead × Bytes)} (h : Requests s reqs rest) (x : Bytes) :
    Requests (s ++ x) reqs (rest ++ x) := by
  induction h with
  | nil s => exact .nil _
  | cons hd content s reqs rest ha _ ih =>
    have : hd.render ++ content ++ s ++ x = hd.render ++ content ++ (s ++ x) := by simp
    rw [this]
    exact .cons hd content (s ++ x) reqs (rest ++ x) ha ih

theorem Requests.snoc {s rest : Bytes} {reqs : List (ReqHead × Bytes)} (hd : ReqHead) (content rest' : Bytes)
    (h : Requests s reqs rest) (he : rest = hd.render ++ content ++ rest') (ha : Acceptable hd content.length) :
    Requests s (reqs ++ [(hd, content)]) rest' := by
  induction h with
  | nil s => subst he; exact .cons hd content rest' [] rest' ha (.nil _)
  | cons h' c' s reqs rest ha' _ ih => exact .cons h' c' s _ _ ha' (ih he)

/-- Two heads at the start of the same bytes are the same as far as anything depends on them. -/
theorem head_unique {h h' : ReqHead} (hw : h.Wf) (hw' : h'.Wf) {r r' : Bytes} (e : h.render ++ r = h'.render ++ r') :
    h.render = h'.render ∧ r = r' ∧ (∀ c, h.view c = h'.view c) ∧ announcedLength h = announcedLength h' := by
  obtain ⟨hp, -⟩ := finished_parser {} h hw r
  obtain ⟨hp', -⟩ := finished_parser {} h' hw' r'
  obtain ⟨a1, a2, a3, a4, a5, a6, a7, a8⟩ := hp.texts r
  obtain ⟨b1, b2, b3, b4, b5, b6, b7, b8⟩ := hp'.texts r'
  have hl : h.render.length = h'.render.length := by
    rw [← hp.bodyStart, ← hp'.bodyStart, e]
  have hr := List.append_inj e hl
  rw [e] at a1 a2 a3 a4 a5 a6 a7 a8
  have e7 := a7.symm.trans b7
  refine ⟨hr.1, hr.2, ?_, ?_⟩
  · intro c
    have e7' : h.headers.map (fun l => (⟨l.name, l.value⟩ : Header)) = h'.headers.map fun l => ⟨l.name, l.value⟩ := by
      have := congrArg (List.map fun f : Bytes × Bytes => (⟨f.1, f.2⟩ : Header)) e7
      simpa [List.map_map, Function.comp_def] using this
    unfold ReqHead.view
    rw [a1.symm.trans b1, a2.symm.trans b2, a3.symm.trans b3, a4.symm.trans b4, a5.symm.trans b5, a6.symm.trans b6, e7']
  · have key : ∀ hs : List HeaderLine, (hs.filter (fun l => decide (SameCI l.name b!"content-length"))).map (fun l => l.value)
        = ((hs.map fun l => (l.name, l.value)).filter (fun l => decide (SameCI l.1 b!"content-length"))).map Prod.snd := by
      intro hs
      induction hs with
      | nil => rfl
      | cons l hs ih =>
        simp only [List.map_cons, List.filter_cons]
        split
        · simp only [List.map_cons, ih]
        · exact ih
    have al : ∀ x : ReqHead, announcedLength x =
        match ((x.headers.filter (fun l => decide (SameCI l.name b!"content-length"))).map (fun l => l.value)).getLast? with
        | none => some 0
        | some v => qtToInt v := by
      intro x
      unfold announcedLength
      rw [List.getLast?_map]
      cases (x.headers.filter (fun l => decide (SameCI l.name b!"content-length"))).getLast? <;> rfl
    rw [al h, al h', key, key, e7]

theorem shown_eq (h : ReqHead) (hw : h.Wf) (c : Bytes) : h.shown c =
    if (h.view c).path ≠ [] ∧ (h.view c).uri.length = (h.view c).path.length + 1 then
      { h.view c with uri := (h.view c).path ++ [0] } else h.view c := by
  unfold ReqHead.shown ReqHead.view
  cases ht : h.target with
  | star => simp [Target.uri, Target.path]
  | absolute a b => simp [Target.uri, Target.path]
  | origin path q =>
    have := hw.target
    rw [ht] at this
    obtain ⟨⟨p, rfl, _⟩, _⟩ := this
    cases q with
    | none => simp [Target.uri, Target.path]
    | some q =>
      cases q with
      | nil => simp [Target.uri, Target.path]
      | cons a q => simp [Target.uri, Target.path]

theorem shown_unique {h h' : ReqHead} (hw : h.Wf) (hw' : h'.Wf) {r r' : Bytes} (e : h.render ++ r = h'.render ++ r') (c : Bytes) :
    h.shown c = h'.shown c := by
  rw [shown_eq h hw, shown_eq h' hw', (head_unique hw hw' e).2.2.1 c]

/-- Decompositions of the same stream agree as far as both go; the remainders tell which one goes further. -/
theorem Requests.unique {s : Bytes} {reqs : List (ReqHead × Bytes)} {rest : Bytes} (h : Requests s reqs rest) :
    ∀ {reqs' : List (ReqHead × Bytes)} {rest' : Bytes}, Requests s reqs' rest' →
    let f := fun l : List (ReqHead × Bytes) => l.map fun q => q.1.shown q.2
    (f reqs = f reqs' ∧ rest = rest') ∨ (f reqs <+: f reqs' ∧ reqs.length < reqs'.length ∧ Complete rest) ∨
    (f reqs' <+: f reqs ∧ reqs'.length < reqs.length ∧ Complete rest') := by
  induction h with
  | nil s =>
    intro reqs' rest' h'
    cases h' with
    | nil => left; exact ⟨rfl, rfl⟩
    | cons hd content s reqs' rest' ha h =>
      right; left
      exact ⟨by simp, by simp, hd, content, s, rfl, ha⟩
  | cons hd content s reqs rest ha hr ih =>
    intro reqs' rest' h'
    generalize hS : hd.render ++ content ++ s = S at h'
    cases h' with
    | nil =>
      right; right
      exact ⟨by simp, by simp, hd, content, s, hS.symm, ha⟩
    | cons hd' content' s' reqs' rest' ha' h' =>
      simp only [List.append_assoc] at hS
      have hu := head_unique ha.wf ha'.wf hS
      have hlen : content.length = content'.length := by
        have h1 := ha.announced
        have h2 := ha'.announced
        rw [hu.2.2.2, h2] at h1
        simp at h1; omega
      have hcs := List.append_inj hu.2.1 hlen
      have hsh : hd.shown content = hd'.shown content' := by
        rw [← hcs.1]; exact shown_unique ha.wf ha'.wf hS content
      have := ih (hcs.2 ▸ h')
      simp only [List.map_cons, List.length_cons, hsh]
      rcases this with ⟨h1, h2⟩ | ⟨h1, h2, h3⟩ | ⟨h1, h2, h3⟩
      · left; exact ⟨congrArg (hd'.shown content' :: ·) h1, h2⟩
      · right; left; exact ⟨by simpa using h1, by omega, h3⟩
      · right; right; exact ⟨by simpa using h1, by omega, h3⟩

/-! ### errors -/

theorem badHead_append {s : Bytes} (h : BadHead s) (x : Bytes) : BadHead (s ++ x) := by
  rcases h with h | ⟨hd, hw, hl, h | ⟨h, hlen⟩⟩
  · left
    intro h' hw'
    constructor
    · intro hp
      rcases Nat.le_total h'.render.length s.length with hle | hle
      · exact (h h' hw').1 (List.prefix_of_prefix_length_le hp (List.prefix_append _ _) hle)
      · exact (h h' hw').2 (List.prefix_of_prefix_length_le (List.prefix_append _ _) hp hle)
    · intro hp
      exact (h h' hw').2 ((List.prefix_append _ _).trans hp)
  · right
    exact ⟨hd, hw, hl, .inl (h.trans (List.prefix_append _ _))⟩
  · by_cases hex : ∃ h' : ReqHead, h'.Wf ∧ (h'.render <+: s ++ x ∨ s ++ x <+: h'.render)
    · right
      obtain ⟨h', hw', hc⟩ := hex
      rcases hc with hc | hc
      · refine ⟨h', hw', ?_, .inl hc⟩
        rcases Nat.le_total h'.render.length s.length with hle | hle
        · have h1 : h'.render <+: s := List.prefix_of_prefix_length_le hc (List.prefix_append _ _) hle
          have h2 := h1.trans h
          obtain ⟨t, ht⟩ := h2
          have := (head_unique hw' hw (r := t) (r' := []) (by simpa using ht)).1
          rw [this]; exact hl
        · omega
      · refine ⟨h', hw', ?_, .inr ⟨hc, by simp; omega⟩⟩
        have := hc.length_le
        simp at this; omega
    · left
      intro h' hw'
      exact ⟨fun hp => hex ⟨h', hw', .inl hp⟩, fun hp => hex ⟨h', hw', .inr hp⟩⟩

theorem errorReason_append {code : Int} {s : Bytes} (h : ErrorReason code s) (x : Bytes) : ErrorReason code (s ++ x) := by
  rcases h with ⟨h1, h2⟩ | ⟨hd, hw, hl, hp, h⟩
  · exact .inl ⟨h1, badHead_append h2 x⟩
  · exact .inr ⟨hd, hw, hl, hp.trans (List.prefix_append _ _), h⟩

/-- A bad start excludes an acceptable head. -/
theorem badHead_no_short {s : Bytes} (h : BadHead s) (hd : ReqHead) (hw : hd.Wf) (hs : hd.render.length ≤ headLimit) :
    ¬ hd.render <+: s := by
  intro hp
  rcases h with h | ⟨h', hw', hl, h | ⟨h, hlen⟩⟩
  · exact (h hd hw).1 hp
  · obtain ⟨t, ht⟩ := hp
    obtain ⟨t', ht'⟩ := h
    have := (head_unique hw hw' (ht.trans ht'.symm)).1
    rw [this] at hs; omega
  · obtain ⟨t, ht⟩ := hp.trans h
    have := (head_unique hw hw' (r := t) (r' := []) (by simpa using ht)).1
    rw [this] at hs; omega

/-- The outcomes exclude each other. -/
theorem errorReason_not_complete {code : Int} {s : Bytes} (h : ErrorReason code s) : ¬ Complete s := by
  rintro ⟨hd, content, rest, rfl, ha⟩
  have hp : hd.render <+: hd.render ++ content ++ rest := by simp [List.append_assoc]
  rcases h with ⟨-, hb⟩ | ⟨h', hw', hl', ⟨t, ht⟩, h⟩
  · exact badHead_no_short hb hd ha.wf ha.short hp
  · have hu := head_unique hw' ha.wf (r := t) (r' := content ++ rest) (by rw [ht]; simp)
    have han := ha.announced
    rw [← hu.2.2.2] at han
    have hsm := ha.small
    rcases h with ⟨-, n, h1, h2⟩ | ⟨-, h1 | ⟨n, h1, h2⟩⟩
    · rw [han] at h1; simp at h1; omega
    · rw [han] at h1; cases h1
    · rw [han] at h1; simp at h1; omega

theorem errorReason_unique {code code' : Int} {s : Bytes} (h : ErrorReason code s) (h' : ErrorReason code' s) : code = code' := by
  rcases h with ⟨rfl, hb⟩ | ⟨hd, hw, hl, hp, h⟩ <;> rcases h' with ⟨rfl, hb'⟩ | ⟨hd', hw', hl', hp', h'⟩
  · rfl
  · exact absurd hp' (badHead_no_short hb hd' hw' hl')
  · exact absurd hp (badHead_no_short hb' hd hw hl)
  · obtain ⟨t, ht⟩ := hp
    obtain ⟨t', ht'⟩ := hp'
    have hu := (head_unique hw hw' (ht.trans ht'.symm)).2.2.2
    rw [← hu] at h'
    rcases h with ⟨rfl, n, h1, h2⟩ | ⟨rfl, h1 | ⟨n, h1, h2⟩⟩ <;>
      rcases h' with ⟨rfl, m, h3, h4⟩ | ⟨rfl, h3 | ⟨m, h3, h4⟩⟩ <;>
      first
        | rfl
        | (rw [h1] at h3; simp at h3; unfold contentLimit at *; omega)
        | (rw [h1] at h3; cases h3)

/-- A live parse that is not too long is neither complete nor an error. -/
theorem live_waiting (s0 : Parser) (buf : Bytes) (h : Live s0 buf) (hl : buf.length ≤ headLimit + 1) :
    ¬ Complete buf ∧ ∀ code, ¬ ErrorReason code buf := by
  constructor
  · rintro ⟨hd, content, rest, rfl, ha⟩
    exact live_no_head s0 _ h hd ha.wf (by simp [List.append_assoc])
  · rintro code (⟨-, hb⟩ | ⟨hd, hw, -, hp, -⟩)
    · obtain ⟨hd, hw, hp⟩ := live_prefix s0 buf h
      rcases hb with hb | ⟨h', hw', hl', hb | ⟨hb, hlen⟩⟩
      · exact (hb hd hw).2 hp
      · exact live_no_head s0 _ h h' hw' hb
      · omega
    · exact live_no_head s0 _ h hd hw hp

/-- Incomplete content is neither complete nor an error. -/
theorem content_waiting (h : ReqHead) (hw : h.Wf) (hl : h.render.length ≤ headLimit) (tail : Bytes) (n : Nat)
    (ha : announcedLength h = some (n : Int)) (hn : (n : Int) ≤ contentLimit) (ht : tail.length < n) :
    ¬ Complete (h.render ++ tail) ∧ ∀ code, ¬ ErrorReason code (h.render ++ tail) := by
  constructor
  · rintro ⟨hd, content, rest, he, hac⟩
    have hu := head_unique hw hac.wf (r := tail) (r' := content ++ rest) (by rw [he]; simp)
    have h1 := hac.announced
    rw [← hu.2.2.2, ha] at h1
    have h2 : tail.length = content.length + rest.length := by rw [hu.2.1]; simp
    simp at h1; omega
  · rintro code (⟨-, hb⟩ | ⟨hd, hw', hl', ⟨t, ht'⟩, h⟩)
    · exact badHead_no_short hb h hw hl (List.prefix_append _ _)
    · have hu := (head_unique hw' hw ht').2.2.2
      rw [hu, ha] at h
      rcases h with ⟨-, m, h1, h2⟩ | ⟨-, h1 | ⟨m, h1, h2⟩⟩
      · simp at h1; omega
      · cases h1
      · simp at h1; omega

/-! ### the announced length -/

/-- The fold of `contentLengthIndex`, abstracted. -/
theorem clIndex_fold {α : Type} (P : α → Bool) : ∀ (l : List α) (a : Option Nat) (k : Nat),
    (l.foldl (fun (acc : Option Nat × Nat) r => (if P r then some acc.2 else acc.1, acc.2 + 1)) (a, k)).1 =
      (((l.zipIdx k).filter (fun x => P x.1)).getLast?.map Prod.snd).or a
  | [], _, _ => rfl
  | x :: l, a, k => by
    rw [List.foldl_cons, clIndex_fold P l]
    simp only [List.zipIdx_cons, List.filter_cons]
    by_cases hx : P x = true
    · simp only [hx, ↓reduceIte]
      cases hl : ((l.zipIdx (k + 1)).filter fun x => P x.1) with
      | nil => simp
      | cons y ys =>
        rw [List.getLast?_cons_cons]
        cases hg : (y :: ys).getLast? with
        | none => simp at hg
        | some z => rfl
    · simp only [hx, Bool.false_eq_true, ↓reduceIte]

theorem zipIdx_filter_last {α : Type} (P : α → Bool) (l : List α) (k : Nat) :
    ((l.zipIdx k).filter (fun x => P x.1)).map Prod.fst = l.filter P := by
  induction l generalizing k with
  | nil => rfl
  | cons x l ih =>
    simp only [List.zipIdx_cons, List.filter_cons]
    split <;> simp [ih]

/-- The index found is that of the header `announcedLength` looks at. -/
theorem clIndex_spec {h : ReqHead} {p : Parser} (hp : IsHeadParser h p) {tail buf : Bytes} (hb : HeadBuf h p tail buf) :
    match contentLengthIndex buf p.fields with
    | none => announcedLength h = some 0
    | some i => announcedLength h = qtToInt ((viewHeaders buf p.fields).getD i ⟨[], []⟩).value := by
  have hv := hb.view hp
  let P : FieldRef → Bool := fun r => r.name.len == 14 && asciiEqualsCI (r.name.of buf) b!"content-length"
  have hf : contentLengthIndex buf p.fields = (((p.fields.zipIdx 0).filter (fun x => P x.1)).getLast?.map Prod.snd) := by
    have := clIndex_fold P p.fields none 0
    rw [Option.or_none] at this
    rw [← this]; rfl
  -- `P` on the references is the test on the header lines
  have hlen := congrArg List.length hv
  simp [viewHeaders] at hlen
  have hPr : ∀ r ∈ p.fields, P r = decide (SameCI (r.name.of buf) b!"content-length") := by
    intro r hr
    have hbd := refs_bounds hp r hr
    have hl : (r.name.of buf).length = r.name.len := by
      have := hb.len
      have hbs := hp.bodyStart
      simp at this
      unfold Slice.of
      simp; omega
    show (r.name.len == 14 && asciiEqualsCI (r.name.of buf) b!"content-length") = _
    rw [Bool.eq_iff_iff]
    simp only [Bool.and_eq_true, beq_iff_eq, decide_eq_true_eq, asciiEqualsCI_iff]
    constructor
    · exact fun h => h.2
    · intro h
      refine ⟨?_, h⟩
      have := congrArg List.length h
      simp at this
      omega
  have hfilt : (p.fields.filter P).map (fun r => r.value.of buf) =
      (h.headers.filter (fun l => decide (SameCI l.name b!"content-length"))).map (fun l => l.value) := by
    have e1 : p.fields.filter P = p.fields.filter (fun r => decide (SameCI (r.name.of buf) b!"content-length")) :=
      List.filter_congr hPr
    have e2 := congrArg (fun l : Headers => (l.filter (fun x => decide (SameCI x.name b!"content-length"))).map (fun x => x.value)) hv
    simp only [viewHeaders, List.filter_map, List.map_map] at e2
    rw [e1]
    exact e2
  have hal : announcedLength h =
      match ((h.headers.filter (fun l => decide (SameCI l.name b!"content-length"))).map (fun l => l.value)).getLast? with
      | none => some 0
      | some v => qtToInt v := by
    unfold announcedLength
    rw [List.getLast?_map]
    cases (h.headers.filter (fun l => decide (SameCI l.name b!"content-length"))).getLast? <;> rfl
  rw [hal, ← hfilt, List.getLast?_map, hf]
  have hz := zipIdx_filter_last P p.fields 0
  rw [← hz, List.getLast?_map]
  cases hgl : ((p.fields.zipIdx 0).filter (fun x => P x.1)).getLast? with
  | none => simp
  | some x =>
    have hmem : x ∈ p.fields.zipIdx 0 := (List.mem_filter.1 (List.mem_of_getLast? hgl)).1
    obtain ⟨x, i⟩ := x
    have := List.mem_zipIdx' hmem
    simp only [Option.map_some]
    have hi : i < p.fields.length := this.1
    simp [viewHeaders, List.getD, hi, ← this.2]

end Pillow
