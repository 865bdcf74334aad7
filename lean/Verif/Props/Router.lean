import Verif.Spec.Router
import Verif.Props.Params
set_option linter.unusedSimpArgs false
set_option linter.unusedVariables false
/-!
# C30, C31: the router
-/
namespace Pillow.Props
open Pillow Pillow.Spec

/-! ### Reading the marks -/

theorem markNames_other {w : Byte → Bool} {mark b : Byte} {bs : Bytes} (h : b ≠ mark ∨ NoWordAhead w bs) :
    markNames w mark (b :: bs) = markNames w mark bs := by
  rw [markNames, if_neg]
  rintro ⟨rfl, h2⟩
  rcases h with h | h
  · exact h rfl
  · cases bs with
    | nil => simp at h2
    | cons c cs => simp [h c rfl] at h2

theorem markReplace_other {w : Byte → Bool} {mark b : Byte} {repl bs : Bytes} (h : b ≠ mark ∨ NoWordAhead w bs) :
    markReplace w mark repl (b :: bs) = b :: markReplace w mark repl bs := by
  rw [markReplace, if_neg]
  rintro ⟨rfl, h2⟩
  rcases h with h | h
  · exact h rfl
  · cases bs with
    | nil => simp at h2
    | cons c cs => simp [h c rfl] at h2

theorem takeWhile_name {w : Byte → Bool} {name rest : Bytes} (h : ∀ c ∈ name, w c = true) (hr : NoWordAhead w rest) :
    (name ++ rest).takeWhile w = name ∧ (name ++ rest).dropWhile w = rest := by
  induction name with
  | nil =>
    cases rest with
    | nil => simp
    | cons c cs => simp [hr c rfl]
  | cons x xs ih =>
    have := ih fun c hc => h c (by simp [hc])
    simp [h x (by simp), this]

theorem mark_name {w : Byte → Bool} (mark : Byte) (repl : Bytes) {name rest : Bytes} (hne : name ≠ []) (h : ∀ c ∈ name, w c = true)
    (hr : NoWordAhead w rest) :
    markNames w mark (mark :: name ++ rest) = name :: markNames w mark rest ∧
      markReplace w mark repl (mark :: name ++ rest) = repl ++ markReplace w mark repl rest := by
  obtain ⟨h1, h2⟩ := takeWhile_name h hr
  constructor
  · rw [List.cons_append, markNames, if_pos ⟨rfl, by rw [h1]; exact hne⟩, h1, h2]
  · rw [List.cons_append, markReplace, if_pos ⟨rfl, by rw [h1]; exact hne⟩, h2]

theorem mark_skip {w : Byte → Bool} (mark : Byte) (repl : Bytes) {a rest : Bytes} (h : ∀ c ∈ a, c ≠ mark) :
    markNames w mark (a ++ rest) = markNames w mark rest ∧ markReplace w mark repl (a ++ rest) = a ++ markReplace w mark repl rest := by
  induction a with
  | nil => exact ⟨rfl, rfl⟩
  | cons x xs ih =>
    obtain ⟨i1, i2⟩ := ih fun c hc => h c (by simp [hc])
    have hx : x ≠ mark ∨ NoWordAhead w (xs ++ rest) := .inl (h x (by simp))
    exact ⟨by rw [List.cons_append, markNames_other hx, i1], by rw [List.cons_append, markReplace_other hx, i2]; rfl⟩

/-- The names of the placeholders. -/
def paramNamesOf (ts : List Tok) : List Bytes := ts.filterMap fun | .param n => some n | _ => none
def splatNamesOf (ts : List Tok) : List Bytes := ts.filterMap fun | .splat n => some n | _ => none
def namesOf (ts : List Tok) : List Bytes := ts.filterMap fun | .param n | .splat n => some n | _ => none

/-- The item of the expression a part becomes. -/
def itemOf : Tok → Item
  | .lit b => .lit b
  | .param _ => .param
  | .splat _ => .splat

/-- The text after the first replacement. -/
def half : Tok → Bytes
  | .lit b => [b]
  | .param _ => paramSource
  | .splat n => 42 :: n

theorem word_special {w : Words} {b : Byte} (h : b < 128) (h2 : ¬ ((48 ≤ b ∧ b ≤ 57) ∨ (65 ≤ b ∧ b ≤ 90) ∨ (97 ≤ b ∧ b ≤ 122) ∨ b = 95)) :
    w.word b = false := by
  rw [w.ascii b h]
  simp only [Bool.or_eq_false_iff, decide_eq_false_iff_not, beq_eq_false_iff_ne]
  refine ⟨⟨⟨?_, ?_⟩, ?_⟩, ?_⟩ <;> intro hc <;> exact h2 (by simp [hc])

theorem reads_half (w : Words) {p : Bytes} {ts : List Tok} (h : Reads w.word p ts) :
    markNames w.word 58 p = paramNamesOf ts ∧ markReplace w.word 58 paramSource p = ts.flatMap half := by
  induction h with
  | nil => exact ⟨by rw [markNames]; rfl, by rw [markReplace]; rfl⟩
  | param name rest ts hne hn hr h ih =>
    obtain ⟨h1, h2⟩ := mark_name 58 paramSource hne hn hr
    exact ⟨by rw [h1, ih.1]; rfl, by rw [h2, ih.2]; rfl⟩
  | splat name rest ts hne hn hr h ih =>
    have hs : ∀ c ∈ (42 : Byte) :: name, c ≠ 58 := by
      intro c hc
      rcases List.mem_cons.1 hc with rfl | hc
      · decide
      · rintro rfl
        have := hn _ hc
        rw [word_special (by decide) (by decide)] at this; cases this
    obtain ⟨h1, h2⟩ := mark_skip (w := w.word) 58 paramSource (rest := rest) hs
    exact ⟨by rw [h1, ih.1]; rfl, by rw [h2, ih.2]; rfl⟩
  | lit b rest ts hb h ih =>
    have hb' : b ≠ 58 ∨ NoWordAhead w.word rest := by
      by_cases e : b = 58
      · exact .inr (hb (.inl e))
      · exact .inl e
    exact ⟨by rw [markNames_other hb', ih.1]; rfl, by rw [markReplace_other hb', ih.2]; rfl⟩

theorem half_noWord (w : Words) {p : Bytes} {ts : List Tok} (h : Reads w.word p ts) (hn : NoWordAhead w.word p) :
    NoWordAhead w.word (ts.flatMap half) := by
  cases h with
  | nil => exact hn
  | param name rest ts hne hn hr h =>
    intro c hc
    have : c = 40 := by simpa [half, paramSource] using hc.symm
    subst this
    exact word_special (by decide) (by decide)
  | splat name rest ts hne hn' hr h =>
    intro c hc
    have : c = 42 := by simpa [half] using hc.symm
    subst this
    exact word_special (by decide) (by decide)
  | lit b rest ts hb h =>
    intro c hc
    apply hn
    simpa [half] using hc

theorem reads_full (w : Words) {p : Bytes} {ts : List Tok} (h : Reads w.word p ts) (hp : Plain ts) :
    markNames w.word 42 (ts.flatMap half) = splatNamesOf ts ∧
      markReplace w.word 42 splatSource (ts.flatMap half) = (ts.map itemOf).flatMap Item.source := by
  induction h with
  | nil => exact ⟨by rw [List.flatMap_nil, markNames]; rfl, by rw [List.flatMap_nil, markReplace]; rfl⟩
  | param name rest ts hne hn hr h ih =>
    have ih := ih fun b hb => hp b (by simp [hb])
    have hs : ∀ c ∈ paramSource, c ≠ 42 := by decide
    obtain ⟨h1, h2⟩ := mark_skip (w := w.word) 42 splatSource (rest := ts.flatMap half) hs
    refine ⟨?_, ?_⟩
    · rw [List.flatMap_cons]; show markNames _ _ (paramSource ++ _) = _; rw [h1, ih.1]; rfl
    · rw [List.flatMap_cons]; show markReplace _ _ _ (paramSource ++ _) = _; rw [h2, ih.2]; rfl
  | splat name rest ts hne hn hr h ih =>
    have ih := ih fun b hb => hp b (by simp [hb])
    obtain ⟨h1, h2⟩ := mark_name (w := w.word) 42 splatSource hne hn (half_noWord w h hr)
    refine ⟨?_, ?_⟩
    · rw [List.flatMap_cons]; show markNames _ _ (42 :: name ++ _) = _; rw [h1, ih.1]; rfl
    · rw [List.flatMap_cons]; show markReplace _ _ _ (42 :: name ++ _) = _; rw [h2, ih.2]; rfl
  | lit b rest ts hb h ih =>
    have ih := ih fun b hb => hp b (by simp [hb])
    have hb' : b ≠ 42 ∨ NoWordAhead w.word (ts.flatMap half) := by
      left; rintro rfl
      exact hp 42 (by simp) (by decide)
    refine ⟨?_, ?_⟩
    · rw [List.flatMap_cons]; show markNames _ _ (b :: ts.flatMap half) = _; rw [markNames_other hb', ih.1]; rfl
    · rw [List.flatMap_cons]; show markReplace _ _ _ (b :: ts.flatMap half) = _; rw [markReplace_other hb', ih.2]; rfl

theorem pathToRegExp_plain (w : Words) {p : Bytes} {ts : List Tok} (h : Reads w.word p ts) (hp : Plain ts) :
    pathToRegExp w.word p = (reText (ts.map itemOf), paramNamesOf ts ++ splatNamesOf ts) := by
  obtain ⟨a1, a2⟩ := reads_half w h
  obtain ⟨b1, b2⟩ := reads_full w h hp
  simp only [pathToRegExp, a1, a2, b1, b2, reText]

theorem items_plain {ts : List Tok} (hp : Plain ts) : ∀ b, Item.lit b ∈ ts.map itemOf → b ∉ special := by
  intro b hb
  obtain ⟨t, h1, h2⟩ := List.mem_map.1 hb
  cases t <;> simp [itemOf] at h2
  subst h2
  exact hp _ h1

/-- A route path can be read in only one way. -/
theorem reads_unique {w : Words} {p : Bytes} {ts ts' : List Tok} (h : Reads w.word p ts) (h' : Reads w.word p ts') : ts = ts' := by
  have split : ∀ {n r n' r' : Bytes}, (∀ c ∈ n, w.word c = true) → NoWordAhead w.word r → (∀ c ∈ n', w.word c = true) → NoWordAhead w.word r' →
      n ++ r = n' ++ r' → n = n' ∧ r = r' := by
    intro n r n' r' h1 h2 h3 h4 e
    obtain ⟨a1, a2⟩ := takeWhile_name h1 h2
    obtain ⟨b1, b2⟩ := takeWhile_name h3 h4
    rw [e] at a1 a2
    exact ⟨a1.symm.trans b1, a2.symm.trans b2⟩
  have ahead : ∀ {n r : Bytes}, n ≠ [] → (∀ c ∈ n, w.word c = true) → NoWordAhead w.word (n ++ r) → False := by
    intro n r hn hw h
    cases n with
    | nil => exact hn rfl
    | cons x xs => have := h x rfl; rw [hw x (by simp)] at this; cases this
  induction h generalizing ts' with
  | nil => cases h'; rfl
  | param name rest ts hne hn hr h ih =>
    generalize e : (58 : Byte) :: name ++ rest = q at h'
    cases h' with
    | nil => cases e
    | param name' rest' ts' hne' hn' hr' h' =>
      obtain ⟨rfl, rfl⟩ := split hn hr hn' hr' (List.cons.inj e).2
      rw [ih h']
    | splat => cases (List.cons.inj e).1
    | lit b rest' ts' hb h' =>
      obtain ⟨rfl, rfl⟩ := List.cons.inj e
      exact (ahead hne hn (hb (.inl rfl))).elim
  | splat name rest ts hne hn hr h ih =>
    generalize e : (42 : Byte) :: name ++ rest = q at h'
    cases h' with
    | nil => cases e
    | param => cases (List.cons.inj e).1
    | splat name' rest' ts' hne' hn' hr' h' =>
      obtain ⟨rfl, rfl⟩ := split hn hr hn' hr' (List.cons.inj e).2
      rw [ih h']
    | lit b rest' ts' hb h' =>
      obtain ⟨rfl, rfl⟩ := List.cons.inj e
      exact (ahead hne hn (hb (.inr rfl))).elim
  | lit b rest ts hb h ih =>
    generalize e : b :: rest = q at h'
    cases h' with
    | nil => cases e
    | param name' rest' ts' hne' hn' hr' h' =>
      obtain ⟨rfl, rfl⟩ := List.cons.inj e
      exact (ahead hne' hn' (hb (.inl rfl))).elim
    | splat name' rest' ts' hne' hn' hr' h' =>
      obtain ⟨rfl, rfl⟩ := List.cons.inj e
      exact (ahead hne' hn' (hb (.inr rfl))).elim
    | lit b rest' ts' hb' h' =>
      obtain ⟨rfl, rfl⟩ := List.cons.inj e
      rw [ih h']

/-- Every route path can be read. -/
theorem reads_total (w : Byte → Bool) : ∀ (n : Nat) (p : Bytes), p.length ≤ n → ∃ ts, Reads w p ts
  | n, [], _ => ⟨[], .nil⟩
  | 0, b :: bs, h => by simp at h
  | n + 1, b :: bs, h => by
    have hd : ∀ (c : Byte), (bs.dropWhile w).head? = some c → w c = false := by
      intro c hc
      have := List.head?_dropWhile_not (p := w) bs
      rw [hc] at this
      simpa using this
    have ht : ∀ c ∈ bs.takeWhile w, w c = true := fun c hc => by
      have := List.all_takeWhile (l := bs) (p := w)
      rw [List.all_eq_true] at this
      exact this c hc
    by_cases hm : (b = 58 ∨ b = 42) ∧ bs.takeWhile w ≠ []
    · have hl : (bs.dropWhile w).length ≤ n := by
        have := (List.dropWhile_sublist w (l := bs)).length_le
        simp at h; omega
      obtain ⟨ts, hts⟩ := reads_total w n _ hl
      have e : b :: bs = b :: bs.takeWhile w ++ bs.dropWhile w := by simp
      rw [e]
      rcases hm with ⟨rfl | rfl, hne⟩
      · exact ⟨_, .param _ _ _ hne ht hd hts⟩
      · exact ⟨_, .splat _ _ _ hne ht hd hts⟩
    · obtain ⟨ts, hts⟩ := reads_total w n bs (by simp at h; omega)
      refine ⟨_, .lit b bs ts ?_ hts⟩
      intro hb c hc
      have : bs.takeWhile w = [] := Classical.byContradiction fun e => hm ⟨hb, e⟩
      cases bs with
      | nil => cases hc
      | cons x xs =>
        cases hc
        rw [List.takeWhile_cons] at this
        split at this
        · cases this
        · rename_i hx; simpa using hx

/-! ### Matching -/

theorem fits_iff {w : Byte → Bool} {ts : List Tok} {s : Bytes} {bind : List (Bytes × Bytes)} :
    Fits w ts s bind ↔ ∃ caps, ReMatches w (ts.map itemOf) s caps ∧ caps.length = (namesOf ts).length ∧ bind = (namesOf ts).zip caps := by
  constructor
  · intro h
    induction h with
    | nil => exact ⟨[], .nil, rfl, rfl⟩
    | lit b ts s bind h ih => obtain ⟨caps, h1, h2, h3⟩ := ih; exact ⟨caps, .lit _ _ _ _ h1, h2, h3⟩
    | param n v ts s bind hne hv h ih =>
      obtain ⟨caps, h1, h2, h3⟩ := ih
      exact ⟨v :: caps, .param _ _ _ _ hne hv h1, by simp [namesOf] at h2 ⊢; exact h2, by rw [h3]; rfl⟩
    | splat n v ts s bind h ih =>
      obtain ⟨caps, h1, h2, h3⟩ := ih
      exact ⟨v :: caps, .splat _ _ _ _ h1, by simp [namesOf] at h2 ⊢; exact h2, by rw [h3]; rfl⟩
  · rintro ⟨caps, h, hl, rfl⟩
    induction ts generalizing s caps with
    | nil => cases h; exact .nil
    | cons t ts ih =>
      cases t with
      | lit b => cases h with | lit _ _ s caps h => exact .lit _ _ _ _ (ih _ h hl)
      | param n =>
        cases h with
        | param v _ s caps hne hv h => exact .param _ _ _ _ _ hne hv (ih _ h (by simp [namesOf] at hl ⊢; exact hl))
      | splat n =>
        cases h with
        | splat v _ s caps h => exact .splat _ _ _ _ _ (ih _ h (by simp [namesOf] at hl ⊢; exact hl))

theorem caps_length {w : Byte → Bool} {ts : List Tok} {s : Bytes} {caps : List Bytes} (h : ReMatches w (ts.map itemOf) s caps) :
    caps.length = (namesOf ts).length := by
  induction ts generalizing s caps with
  | nil => cases h; rfl
  | cons t ts ih =>
    cases t with
    | lit b => cases h with | lit _ _ s caps h => exact ih h
    | param n => cases h with | param v _ s caps hne hv h => simp [namesOf]; exact ih h
    | splat n => cases h with | splat v _ s caps h => simp [namesOf]; exact ih h

/-- The engine the model comes with is one. -/
theorem tryLengths_some {f : Nat → Option (List Bytes)} {n : Nat} {r : List Bytes} (h : tryLengths f n = some r) : ∃ k ≤ n, f k = some r := by
  induction n with
  | zero => exact ⟨0, Nat.le_refl 0, h⟩
  | succ n ih =>
    simp only [tryLengths] at h
    split at h
    · rename_i e; cases h; exact ⟨n + 1, Nat.le_refl _, e⟩
    · obtain ⟨k, h1, h2⟩ := ih h; exact ⟨k, by omega, h2⟩

theorem tryLengths_complete {f : Nat → Option (List Bytes)} {n k : Nat} (hk : k ≤ n) {r : List Bytes} (h : f k = some r) :
    ∃ r', tryLengths f n = some r' := by
  induction n with
  | zero => cases Nat.le_zero.1 hk; exact ⟨r, h⟩
  | succ n ih =>
    simp only [tryLengths]
    split
    · exact ⟨_, rfl⟩
    · rename_i e
      have : k ≠ n + 1 := by rintro rfl; rw [h] at e; cases e
      exact ih (by omega)

theorem paramByte_iff {w : Byte → Bool} {v : Bytes} : v.all (paramByte w) = true ↔ ∀ c ∈ v, w c = true ∨ c = 95 ∨ c = 45 := by
  rw [List.all_eq_true]
  simp [paramByte, or_assoc]

theorem greedy_sound {w : Byte → Bool} {is : List Item} : ∀ {s : Bytes} {caps : List Bytes}, greedy w is s = some caps → ReMatches w is s caps := by
  induction is with
  | nil =>
    intro s caps h
    cases s with
    | nil => cases h; exact .nil
    | cons => cases h
  | cons i is ih =>
    intro s caps h
    cases i with
    | lit b =>
      cases s with
      | nil => cases h
      | cons c cs =>
        simp only [greedy] at h
        split at h
        · rename_i e; subst e; exact .lit _ _ _ _ (ih h)
        · cases h
    | any =>
      cases s with
      | nil => cases h
      | cons c cs => exact .any _ _ _ _ (ih h)
    | param =>
      simp only [greedy] at h
      obtain ⟨k, hk, h⟩ := tryLengths_some h
      split at h
      · rename_i hc
        obtain ⟨cs, h1, rfl⟩ := Option.map_eq_some_iff.1 h
        have := ReMatches.param (s.take k) _ _ _ (by
          intro e; rw [List.take_eq_nil_iff] at e
          rcases e with e | e
          · omega
          · subst e; simp at hk; omega) (paramByte_iff.1 hc.2) (ih h1)
        rwa [List.take_append_drop] at this
      · cases h
    | splat =>
      simp only [greedy] at h
      obtain ⟨k, hk, h⟩ := tryLengths_some h
      obtain ⟨cs, h1, rfl⟩ := Option.map_eq_some_iff.1 h
      have := ReMatches.splat (s.take k) _ _ _ (ih h1)
      rwa [List.take_append_drop] at this

theorem greedy_complete {w : Byte → Bool} {is : List Item} {s : Bytes} {caps : List Bytes} (h : ReMatches w is s caps) :
    ∃ caps', greedy w is s = some caps' := by
  induction h with
  | nil => exact ⟨[], rfl⟩
  | lit b is s caps h ih => obtain ⟨c, hc⟩ := ih; exact ⟨c, by simp [greedy, hc]⟩
  | any b is s caps h ih => obtain ⟨c, hc⟩ := ih; exact ⟨c, by simp [greedy, hc]⟩
  | param v is s caps hne hv h ih =>
    obtain ⟨c, hc⟩ := ih
    simp only [greedy]
    have hpos : 0 < v.length := List.length_pos_iff.2 hne
    refine tryLengths_complete (k := v.length) (r := v :: c) (by simp) ?_
    rw [if_pos ⟨hpos, by rw [List.take_left]; exact paramByte_iff.2 hv⟩]
    simp [hc]
  | splat v is s caps h ih =>
    obtain ⟨c, hc⟩ := ih
    simp only [greedy]
    exact tryLengths_complete (k := v.length) (r := v :: c) (by simp) (by simp [hc])

theorem parseItems_text {is : List Item} (hp : ∀ b, Item.lit b ∈ is → b ∉ special) : ∀ n, (is.flatMap Item.source).length < n →
    parseItems n (is.flatMap Item.source) = some is := by
  induction is with
  | nil => intro n hn; cases n with | zero => simp at hn | succ n => rfl
  | cons i is ih =>
    intro n hn
    have ih := ih fun b hb => hp b (by simp [hb])
    cases n with
    | zero => simp at hn
    | succ n =>
      rw [List.flatMap_cons] at hn ⊢
      rw [List.length_append] at hn
      generalize is.flatMap Item.source = r at *
      cases i with
      | lit b =>
        have hb : b ∉ special := hp b (by simp)
        show parseItems (n + 1) (b :: r) = _
        have h40 : b ≠ 40 := by rintro rfl; exact hb (by decide)
        have h46 : b ≠ 46 := by rintro rfl; exact hb (by decide)
        have e1 : (Item.source .param).isPrefixOf (b :: r) = false := by
          simp [Item.source, List.isPrefixOf]; intro e; exact (h40 e.symm).elim
        have e2 : (Item.source .splat).isPrefixOf (b :: r) = false := by
          simp [Item.source, List.isPrefixOf]; intro e; exact (h40 e.symm).elim
        simp only [parseItems, e1, e2, h46, hb, if_false, Bool.false_eq_true]
        have hn' : 1 + r.length < n + 1 := hn
        rw [ih n (by omega)]; rfl
      | any =>
        show parseItems (n + 1) (46 :: r) = _
        have e1 : (Item.source .param).isPrefixOf (46 :: r) = false := rfl
        have e2 : (Item.source .splat).isPrefixOf (46 :: r) = false := rfl
        simp only [parseItems, e1, e2, if_false, Bool.false_eq_true, if_true]
        have hn' : 1 + r.length < n + 1 := hn
        rw [ih n (by omega)]; rfl
      | param =>
        show parseItems (n + 1) (40 :: (((Item.source .param).drop 1) ++ r)) = _
        have e1 : (Item.source .param).isPrefixOf (40 :: (((Item.source .param).drop 1) ++ r)) = true := rfl
        have e3 : (40 :: (((Item.source .param).drop 1) ++ r)).drop (Item.source .param).length = r := rfl
        simp only [parseItems, e1, if_true, e3]
        have hn' : 9 + r.length < n + 1 := hn
        rw [ih n (by omega)]; rfl
      | splat =>
        show parseItems (n + 1) (40 :: (((Item.source .splat).drop 1) ++ r)) = _
        have e1 : (Item.source .param).isPrefixOf (40 :: (((Item.source .splat).drop 1) ++ r)) = false := rfl
        have e2 : (Item.source .splat).isPrefixOf (40 :: (((Item.source .splat).drop 1) ++ r)) = true := rfl
        have e3 : (40 :: (((Item.source .splat).drop 1) ++ r)).drop (Item.source .splat).length = r := rfl
        simp only [parseItems, e1, e2, if_true, if_false, Bool.false_eq_true, e3]
        have hn' : 4 + r.length < n + 1 := hn
        rw [ih n (by omega)]; rfl

theorem greedyEngine_text (w : Byte → Bool) {is : List Item} (hp : ∀ b, Item.lit b ∈ is → b ∉ special) (s : Bytes) :
    greedyEngine w (reText is) s = greedy w is s := by
  show (match ((is.flatMap Item.source) ++ b!"$").getLast? with
    | some 36 => (parseItems (((is.flatMap Item.source) ++ b!"$").length + 1) ((is.flatMap Item.source) ++ b!"$").dropLast).bind fun is => greedy w is s
    | _ => none) = _
  rw [List.getLast?_append]
  simp only [List.getLast?_singleton, Option.some_or]
  rw [List.dropLast_concat, parseItems_text hp _ (by simp; omega)]
  rfl

theorem greedyEngine_good (w : Byte → Bool) : GoodEngine w (greedyEngine w) where
  sound is s caps hp h := by rw [greedyEngine_text w hp] at h; exact greedy_sound h
  complete is s caps hp h := by rw [greedyEngine_text w hp]; exact greedy_complete h

/-! ### C30 -/

theorem latinLower_ascii : ∀ b : Byte, b < 128 → latinLower b = lower b := byte_forall (by decide +kernel)
theorem latinLower_high : ∀ b : Byte, 128 ≤ b → 128 ≤ latinLower b ∧ 128 ≤ lower b := byte_forall (by decide +kernel)
theorem lower_ascii : ∀ b : Byte, b < 128 → lower b < 128 ∧ (lower b = 0 → b = 0) := byte_forall (by decide +kernel)

theorem qstricmpEq_iff : ∀ (a b : Bytes), (∀ x ∈ a, x < 128 ∧ x ≠ 0) → a.length = b.length → (qstricmpEq a b = true ↔ SameCI a b)
  | [], [], _, _ => by simp [qstricmpEq, SameCI]
  | [], b :: bs, _, h => by simp at h
  | a :: as, [], _, h => by simp at h
  | a :: as, b :: bs, ha, h => by
    have ih := qstricmpEq_iff as bs (fun x hx => ha x (by simp [hx])) (by simpa using h)
    obtain ⟨h1, h2⟩ := ha a (by simp)
    have h3 : latinLower a = latinLower b ↔ lower a = lower b := by
      by_cases hb : b < 128
      · rw [latinLower_ascii a h1, latinLower_ascii b hb]
      · have hb' : 128 ≤ b := by simpa [UInt8.not_lt] using hb
        obtain ⟨k1, k2⟩ := latinLower_high b hb'
        have k3 := (lower_ascii a h1).1
        rw [latinLower_ascii a h1]
        constructor <;> intro e <;> rw [e] at k3
        · exact absurd k1 (by simpa [UInt8.not_le] using k3)
        · exact absurd k2 (by simpa [UInt8.not_le] using k3)
    have h4 : ¬ latinLower a = 0 := by
      rw [latinLower_ascii a h1]; exact fun e => h2 ((lower_ascii a h1).2 e)
    unfold SameCI at ih ⊢
    simp only [qstricmpEq, beq_iff_eq, List.map_cons, List.cons.injEq]
    rw [← h3, ← ih]
    by_cases e : latinLower a = latinLower b
    · simp [e, h4]
      rw [← e]; simp [h4]
    · simp [e]

theorem sameCI_length {a b : Bytes} (h : SameCI a b) : a.length = b.length := by
  have := congrArg List.length h
  simpa using this

theorem methodFits_iff {r : Route} (h : ∀ x ∈ r.method, x < 128 ∧ x ≠ 0) (meth : Bytes) : methodFits r meth = true ↔ MethodOk r.method meth := by
  simp only [methodFits, MethodOk, Bool.or_eq_true, beq_iff_eq, Bool.and_eq_true]
  constructor
  · rintro (e | ⟨e1, e2⟩)
    · exact .inl e
    · exact .inr ((qstricmpEq_iff _ _ h e1).1 e2)
  · rintro (e | e)
    · exact .inl e
    · exact .inr ⟨sameCI_length e, (qstricmpEq_iff _ _ h (sameCI_length e)).2 e⟩

/-- The expression of a plain route matches a path iff the route path does. -/
theorem engine_path (w : Words) {m : Engine} (hm : GoodEngine w.word m) {p : Bytes} (hp : ∀ ts, Reads w.word p ts → Plain ts) (path : Bytes) :
    (m (pathToRegExp w.word p).1 path).isSome = true ↔ ∃ bind, PathMatches w.word p path bind := by
  obtain ⟨ts, hts⟩ := reads_total w.word _ p (Nat.le_refl _)
  rw [pathToRegExp_plain w hts (hp ts hts)]
  constructor
  · intro h
    obtain ⟨caps, hc⟩ := Option.isSome_iff_exists.1 h
    have := hm.sound _ _ _ (items_plain (hp ts hts)) hc
    exact ⟨_, ts, hts, fits_iff.2 ⟨caps, this, caps_length this, rfl⟩⟩
  · rintro ⟨bind, ts', h1, h2⟩
    cases reads_unique hts h1
    obtain ⟨caps, h3, -⟩ := fits_iff.1 h2
    obtain ⟨c', hc⟩ := hm.complete _ _ _ (items_plain (hp ts hts)) h3
    simp [hc]

theorem routesOf_eq (w : Byte → Bool) (table : List (Bytes × Bytes)) :
    routesOf w table = table.map fun r => ⟨r.1, (pathToRegExp w r.2).1, (pathToRegExp w r.2).2⟩ := by
  have : ∀ (table : List (Bytes × Bytes)) (acc : List Route), table.foldl (fun t r => addRoute w t r.1 r.2) acc =
      acc ++ table.map fun r => ⟨r.1, (pathToRegExp w r.2).1, (pathToRegExp w r.2).2⟩ := by
    intro table
    induction table with
    | nil => intro acc; simp
    | cons r t ih => intro acc; rw [List.foldl_cons, ih]; simp [addRoute]
  rw [routesOf, this]; rfl

/-- The loop, for any predicate that tells which expressions match. -/
theorem routeLoop_spec (m : Engine) (meth path : Bytes) : ∀ (rs : List Route) (i : Nat) (acc : List Route),
    (∃ k r caps, rs[k]? = some r ∧ m r.regExp path = some caps ∧ methodFits r meth = true ∧
      (∀ j r', j < k → rs[j]? = some r' → ¬ ((m r'.regExp path).isSome = true ∧ methodFits r' meth = true)) ∧
      routeLoop m meth path rs i acc = .inl (i + k, bindNames r.paramNames caps)) ∨
    ((∀ r ∈ rs, ¬ ((m r.regExp path).isSome = true ∧ methodFits r meth = true)) ∧
      routeLoop m meth path rs i acc = .inr (acc ++ rs.filter fun r => (m r.regExp path).isSome))
  | [], i, acc => .inr ⟨by simp, by simp [routeLoop]⟩
  | r :: rs, i, acc => by
    cases hc : m r.regExp path with
    | none =>
      rcases routeLoop_spec m meth path rs (i + 1) acc with ⟨k, r0, caps, h1, h2, h3, h4, h5⟩ | ⟨h1, h2⟩
      · refine .inl ⟨k + 1, r0, caps, h1, h2, h3, ?_, ?_⟩
        · intro j r' hj hr'
          cases j with
          | zero => cases hr'; rw [hc]; simp
          | succ j => exact h4 j r' (by omega) hr'
        · simp only [routeLoop, hc, h5]; congr 2; omega
      · refine .inr ⟨?_, ?_⟩
        · intro r' hr'
          rcases List.mem_cons.1 hr' with rfl | hr'
          · rw [hc]; simp
          · exact h1 r' hr'
        · simp only [routeLoop, hc, h2]; simp [hc]
    | some caps =>
      by_cases hf : methodFits r meth = true
      · exact .inl ⟨0, r, caps, rfl, hc, hf, by intro j r' hj; omega, by simp [routeLoop, hc, hf]⟩
      · rcases routeLoop_spec m meth path rs (i + 1) (acc ++ [r]) with ⟨k, r0, caps', h1, h2, h3, h4, h5⟩ | ⟨h1, h2⟩
        · refine .inl ⟨k + 1, r0, caps', h1, h2, h3, ?_, ?_⟩
          · intro j r' hj hr'
            cases j with
            | zero => cases hr'; simp [hf]
            | succ j => exact h4 j r' (by omega) hr'
          · simp only [routeLoop, hc, hf, h5]; simp; omega
        · refine .inr ⟨?_, ?_⟩
          · intro r' hr'
            rcases List.mem_cons.1 hr' with rfl | hr'
            · simp [hf]
            · exact h1 r' hr'
          · simp only [routeLoop, hc, hf, h2]; simp [hc]

theorem allowedMethods_succ : ∀ (rs : List Route) (i : Nat), 0 < i → allowedMethods rs i = (rs.map fun r => b!", " ++ r.method).flatten
  | [], _, _ => rfl
  | r :: rs, i, h => by simp [allowedMethods, h, allowedMethods_succ rs (i + 1) (by omega)]

theorem allowedMethods_eq (rs : List Route) : allowedMethods rs 0 = List.intercalate b!", " (rs.map (·.method)) := by
  cases rs with
  | nil => rfl
  | cons r rs =>
    simp only [allowedMethods, allowedMethods_succ rs 1 (by omega), List.map_cons]
    simp
    induction rs generalizing r with
    | nil => simp [List.intercalate]
    | cons a rs ih => simpa [List.intercalate, List.intersperse] using ih a

theorem dispatch_core (w : Words) (m : Engine) (table : List (Bytes × Bytes)) (ok : Bytes × Bytes → Prop)
    (hascii : ∀ r ∈ table, ∀ x ∈ r.1, x < 128 ∧ x ≠ 0)
    (rt : Router) (hrt : rt.routes = routesOf w.word table) (dec : Bytes → Bytes) (method methodParam rawPath meth : Bytes)
    (hpo : ∀ r ∈ table, ((m (pathToRegExp w.word r.2).1 (dec rawPath)).isSome = true ↔ ok r))
    (hmeth : meth = if rt.acceptMethodParam = true ∧ methodParam ≠ [] then methodParam else method) :
    Dispatches rt table ok meth (rt.handle m dec method methodParam rawPath) := by
  have he : effectiveMethod rt method methodParam = meth := by
    rw [hmeth]; unfold effectiveMethod
    by_cases h1 : rt.acceptMethodParam = true <;> by_cases h2 : methodParam = [] <;> simp [h1, h2]
  have hre := routesOf_eq w.word table
  rw [← hrt] at hre
  have hmo : ∀ r ∈ table, (methodFits ⟨r.1, (pathToRegExp w.word r.2).1, (pathToRegExp w.word r.2).2⟩ meth = true ↔ MethodOk r.1 meth) :=
    fun r hr => methodFits_iff (hascii r hr) meth
  rcases routeLoop_spec m meth (dec rawPath) rt.routes 0 [] with ⟨k, r, caps, h1, h2, h3, h4, h5⟩ | ⟨h1, h2⟩
  · left
    rw [hre, List.getElem?_map, Option.map_eq_some_iff] at h1
    obtain ⟨r0, h1, rfl⟩ := h1
    have hmem := List.mem_of_getElem? h1
    refine ⟨k, r0, bindNames (pathToRegExp w.word r0.2).2 caps, h1, (hpo r0 hmem).1 (by rw [h2]; rfl), (hmo r0 hmem).1 h3, ?_, ?_⟩
    · intro j r' hj hr' hc
      have hmem' := List.mem_of_getElem? hr'
      refine h4 j _ hj (by rw [hre, List.getElem?_map, hr']; rfl) ⟨(hpo r' hmem').2 hc.1, (hmo r' hmem').2 hc.2⟩
    · simp only [Router.handle, he, h5]; rw [Nat.zero_add]
  · right
    have hno : ∀ r ∈ table, ¬ (ok r ∧ MethodOk r.1 meth) := by
      intro r hr hc
      exact h1 _ (by rw [hre]; exact List.mem_map.2 ⟨r, hr, rfl⟩) ⟨(hpo r hr).2 hc.1, (hmo r hr).2 hc.2⟩
    refine ⟨hno, ?_⟩
    have hfil : (rt.routes.filter fun r => (m r.regExp (dec rawPath)).isSome).map (·.method) = allowed ok table := by
      have : ∀ t : List (Bytes × Bytes), (∀ r ∈ t, r ∈ table) →
          ((t.map fun r => (⟨r.1, (pathToRegExp w.word r.2).1, (pathToRegExp w.word r.2).2⟩ : Route)).filter
            fun r => (m r.regExp (dec rawPath)).isSome).map (·.method) = allowed ok t := by
        intro t ht
        induction t with
        | nil => rfl
        | cons r t ih =>
          have ih := ih fun r' hr' => ht r' (by simp [hr'])
          have := hpo r (ht r (by simp))
          unfold allowed at ih ⊢
          rw [List.map_cons, List.filter_cons, List.filter_cons]
          by_cases hp : ok r
          · rw [if_pos (this.2 hp), if_pos (by simpa using hp), List.map_cons, List.map_cons, ih]
          · rw [if_neg (fun e => hp (this.1 e)), if_neg (by simpa using hp), ih]
      rw [hre]; exact this table fun r hr => hr
    by_cases hany : ∃ r ∈ table, ok r
    · refine .inr ⟨hany, ?_⟩
      obtain ⟨r, hr, hp⟩ := hany
      simp only [Router.handle, he, h2, List.nil_append]
      cases hf : rt.routes.filter fun r => (m r.regExp (dec rawPath)).isSome with
      | nil =>
        exfalso
        have : (⟨r.1, (pathToRegExp w.word r.2).1, (pathToRegExp w.word r.2).2⟩ : Route) ∈
            rt.routes.filter fun r => (m r.regExp (dec rawPath)).isSome := by
          rw [List.mem_filter]; exact ⟨by rw [hre]; exact List.mem_map.2 ⟨r, hr, rfl⟩, (hpo r hr).2 hp⟩
        rw [hf] at this; cases this
      | cons a as =>
        rw [hf] at hfil
        simp only [allowedMethods_eq, hfil]
        cases rt.methodMismatch <;> simp
    · refine .inl ⟨fun r hr hp => hany ⟨r, hr, hp⟩, ?_⟩
      simp only [Router.handle, he, h2, List.nil_append]
      have hf : (rt.routes.filter fun r => (m r.regExp (dec rawPath)).isSome) = [] := by
        rw [List.filter_eq_nil_iff, hre]
        intro r hr
        obtain ⟨r0, h3, rfl⟩ := List.mem_map.1 hr
        intro hc
        exact hany ⟨r0, h3, (hpo r0 h3).1 hc⟩
      rw [hf]
      cases rt.unmatched <;> simp

/-- C30: the router invokes exactly the first route whose path matches and whose method fits; if there is none it answers 404 if no
path matches and 405 if some do, with the methods of these routes, or passes the request on, as configured.  Here a route path
matches if the expression made from it does, whatever it contains and whatever the engine. -/
theorem C30_dispatch (w : Words) (m : Engine) (table : List (Bytes × Bytes)) (hascii : ∀ r ∈ table, ∀ x ∈ r.1, x < 128 ∧ x ≠ 0)
    (rt : Router) (hrt : rt.routes = routesOf w.word table) (dec : Bytes → Bytes) (method methodParam rawPath meth : Bytes)
    (hmeth : meth = if rt.acceptMethodParam = true ∧ methodParam ≠ [] then methodParam else method) :
    Dispatches rt table (fun r => (m (pathToRegExp w.word r.2).1 (dec rawPath)).isSome = true) meth (rt.handle m dec method methodParam rawPath) :=
  dispatch_core w m table _ hascii rt hrt dec method methodParam rawPath meth (fun _ _ => Iff.rfl) hmeth

/-- C30 for route paths without special characters: a route path matches if the path consists of its parts. -/
theorem C30_plain_paths (w : Words) (m : Engine) (hm : GoodEngine w.word m) (table : List (Bytes × Bytes))
    (hplain : ∀ r ∈ table, ∀ ts, Reads w.word r.2 ts → Plain ts) (hascii : ∀ r ∈ table, ∀ x ∈ r.1, x < 128 ∧ x ≠ 0)
    (rt : Router) (hrt : rt.routes = routesOf w.word table) (dec : Bytes → Bytes) (method methodParam rawPath meth : Bytes)
    (hmeth : meth = if rt.acceptMethodParam = true ∧ methodParam ≠ [] then methodParam else method) :
    Dispatches rt table (fun r => PathOk w.word r (dec rawPath)) meth (rt.handle m dec method methodParam rawPath) :=
  dispatch_core w m table _ hascii rt hrt dec method methodParam rawPath meth (fun r hr => engine_path w hm (hplain r hr) _) hmeth

/-! ### C31 -/

theorem names_split {ts : List Tok} (h : ParamsFirst ts) : paramNamesOf ts ++ splatNamesOf ts = namesOf ts := by
  induction ts with
  | nil => rfl
  | cons t ts ih =>
    have hp := List.pairwise_cons.1 h
    have ih := ih hp.2
    cases t with
    | lit b => exact ih
    | param n => show n :: (paramNamesOf ts ++ splatNamesOf ts) = n :: namesOf ts; rw [ih]
    | splat n =>
      have : paramNamesOf ts = [] := by
        rw [paramNamesOf, List.filterMap_eq_nil_iff]
        intro t ht
        cases t with
        | param m => exact absurd rfl (hp.1 _ ht n m rfl)
        | _ => rfl
      show paramNamesOf ts ++ n :: splatNamesOf ts = n :: namesOf ts
      rw [this] at ih ⊢
      rw [← ih]; rfl

theorem bindNames_zip {names caps : List Bytes} (h : caps.length = names.length) : bindNames names caps = names.zip caps := by
  have : ∀ (names caps pre : List Bytes), caps.length = names.length →
      (names.zipIdx pre.length).map (fun p => (p.1, (pre ++ caps).getD p.2 [])) = names.zip caps := by
    intro names
    induction names with
    | nil => intro caps pre h; simp
    | cons n names ih =>
      intro caps pre h
      cases caps with
      | nil => simp at h
      | cons c caps =>
        have := ih caps (pre ++ [c]) (by simpa using h)
        simp only [List.zipIdx_cons, List.map_cons, List.zip_cons_cons]
        congr 1
        · simp
        · simpa using this
  exact this names caps [] h

/-- Setting parameters one after the other. -/
def setAll (params : List (Bytes × Bytes)) : List Label := params.map fun p => .setParam p.1 p.2

theorem setAll_run (params : List (Bytes × Bytes)) (s : Conf) (he : s.inEnv = true) (hf : s.c.fault = none) :
    s.run (setAll params) = some ⟨params.foldl (fun c p => c.setRequestParam p.1 p.2) s.c, s.stack⟩ := by
  induction params generalizing s with
  | nil => rfl
  | cons p ps ih =>
    have hf' : (s.c.setRequestParam p.1 p.2).fault = none := by
      simp only [Conn.setRequestParam, Conn.requestParams]; split <;> exact hf
    have : s.step (.setParam p.1 p.2) = some ⟨s.c.setRequestParam p.1 p.2, s.stack⟩ := by simp [Conf.step, he, hf]
    simp only [setAll, List.map_cons, Conf.run, this]
    exact ih ⟨s.c.setRequestParam p.1 p.2, s.stack⟩ he hf'

theorem requestParams_of_ne {c : Conn} (h : c.params ≠ []) : c.requestParams = c := by
  unfold Conn.requestParams; rw [if_neg]; exact fun e => h e.1

theorem paramSet_ne (ps : List (Bytes × Bytes)) (n v : Bytes) : paramSet ps n v ≠ [] := by
  cases ps with
  | nil => simp [paramSet]
  | cons x xs => simp only [paramSet]; split <;> simp

/-- After setting parameters with different names, each has its value and all others are as before. -/
theorem setAll_lookup (params : List (Bytes × Bytes)) (hd : params.Pairwise fun a b => ¬ SameCI a.1 b.1) (c : Conn) :
    (∀ p ∈ params, ((params.foldl (fun c p => c.setRequestParam p.1 p.2) c).requestParamValue p.1).1 = p.2) ∧
    ∀ n, (∀ p ∈ params, ¬ SameCI n p.1) → ((params.foldl (fun c p => c.setRequestParam p.1 p.2) c).requestParamValue n).1 = (c.requestParamValue n).1 := by
  induction params generalizing c with
  | nil => exact ⟨by simp, fun n _ => rfl⟩
  | cons p ps ih =>
    obtain ⟨hd1, hd2⟩ := List.pairwise_cons.1 hd
    obtain ⟨i1, i2⟩ := ih hd2 (c.setRequestParam p.1 p.2)
    have hval : ∀ n, ((c.setRequestParam p.1 p.2).requestParamValue n).1 = paramLookup (paramSet c.requestParams.params p.1 p.2) n := by
      intro n
      show paramLookup (c.setRequestParam p.1 p.2).requestParams.params n = _
      rw [requestParams_of_ne (c := c.setRequestParam p.1 p.2) (paramSet_ne _ _ _)]
      rfl
    obtain ⟨k1, k2⟩ := C27_lookup c.requestParams.params p.1 p.2
    refine ⟨?_, ?_⟩
    · intro q hq
      rcases List.mem_cons.1 hq with rfl | hq
      · rw [List.foldl_cons, i2 _ (fun p' hp' => hd1 p' hp'), hval, k1]
      · exact i1 q hq
    · intro n hn
      rw [List.foldl_cons, i2 n (fun p' hp' => hn p' (by simp [hp'])), hval, k2 n (hn p (by simp))]
      rfl

theorem names_length (ts : List Tok) : (paramNamesOf ts ++ splatNamesOf ts).length = (namesOf ts).length := by
  rw [List.length_append]
  induction ts with
  | nil => rfl
  | cons t ts ih =>
    cases t with
    | lit b => exact ih
    | param n =>
      have h1 : paramNamesOf (.param n :: ts) = n :: paramNamesOf ts := rfl
      have h2 : splatNamesOf (.param n :: ts) = splatNamesOf ts := rfl
      have h3 : namesOf (.param n :: ts) = n :: namesOf ts := rfl
      rw [h1, h2, h3, List.length_cons, List.length_cons]; omega
    | splat n =>
      have h1 : paramNamesOf (.splat n :: ts) = paramNamesOf ts := rfl
      have h2 : splatNamesOf (.splat n :: ts) = n :: splatNamesOf ts := rfl
      have h3 : namesOf (.splat n :: ts) = n :: namesOf ts := rfl
      rw [h1, h2, h3, List.length_cons, List.length_cons]; omega

theorem names_first {ts : List Tok} (hd : (namesOf ts).Pairwise (· ≠ ·)) (h : paramNamesOf ts ++ splatNamesOf ts = namesOf ts) : ParamsFirst ts := by
  induction ts with
  | nil => exact .nil
  | cons t ts ih =>
    cases t with
    | lit b => exact .cons (fun _ _ n m e => by cases e) (ih hd h)
    | param n =>
      have h' : n :: (paramNamesOf ts ++ splatNamesOf ts) = n :: namesOf ts := h
      exact .cons (fun _ _ n m e => by cases e) (ih (List.pairwise_cons.1 hd).2 (List.cons.inj h').2)
    | splat n =>
      have h' : paramNamesOf ts ++ n :: splatNamesOf ts = n :: namesOf ts := h
      have hd' := List.pairwise_cons.1 (show (n :: namesOf ts).Pairwise (· ≠ ·) from hd)
      cases hps : paramNamesOf ts with
      | nil =>
        refine .cons (fun t ht n' m _ et => ?_) (ih hd'.2 ?_)
        · subst et
          have : m ∈ paramNamesOf ts := List.mem_filterMap.2 ⟨_, ht, rfl⟩
          rw [hps] at this
          cases this
        · rw [hps] at h' ⊢
          exact (List.cons.inj h').2
      | cons p ps =>
        rw [hps] at h'
        have hp : p ∈ paramNamesOf ts := by rw [hps]; simp
        obtain ⟨t, ht, e⟩ := List.mem_filterMap.1 hp
        have hpn : p ∈ namesOf ts := List.mem_filterMap.2 ⟨t, ht, by cases t <;> simp_all⟩
        exact absurd (List.cons.inj h').1.symm (hd'.1 p hpn)

theorem invoke_params (w : Words) (m : Engine) (hm : GoodEngine w.word m) (table : List (Bytes × Bytes)) (rt : Router)
    (hrt : rt.routes = routesOf w.word table) (dec : Bytes → Bytes) (method methodParam rawPath : Bytes) (i : Nat) (params : List (Bytes × Bytes))
    (hinv : rt.handle m dec method methodParam rawPath = .invoke i params) (r : Bytes × Bytes) (hi : table[i]? = some r)
    (ts : List Tok) (hts : Reads w.word r.2 ts) (hp : Plain ts) :
    ∃ caps, ReMatches w.word (ts.map itemOf) (dec rawPath) caps ∧ params = bindNames (paramNamesOf ts ++ splatNamesOf ts) caps := by
  unfold Router.handle at hinv
  rcases routeLoop_spec m (effectiveMethod rt method methodParam) (dec rawPath) rt.routes 0 [] with ⟨k, r1, caps, h1, h2, h3, h4, h5⟩ | ⟨h1, h2⟩
  · rw [h5] at hinv
    simp only [RouteAction.invoke.injEq] at hinv
    obtain ⟨rfl, rfl⟩ := hinv
    rw [hrt, routesOf_eq, List.getElem?_map] at h1
    rw [Nat.zero_add] at hi
    rw [hi] at h1
    simp only [Option.map_some, Option.some.injEq] at h1
    subst h1
    simp only [pathToRegExp_plain w hts hp] at h2 ⊢
    exact ⟨caps, hm.sound _ _ _ (items_plain hp) h2, rfl⟩
  · rw [h2] at hinv
    exfalso
    split at hinv
    · rename_i e; cases e
    · split at hinv <;> cases hinv
    · split at hinv <;> cases hinv

/-- C31, what happens in general: the pieces of the path, in their order, are given first to the `:names` and then to the `*names`; so every
name gets its own piece if and only if no `*name` comes before a `:name`. -/
theorem C31_exactly (w : Words) (m : Engine) (hm : GoodEngine w.word m) (table : List (Bytes × Bytes)) (rt : Router)
    (hrt : rt.routes = routesOf w.word table) (dec : Bytes → Bytes) (method methodParam rawPath : Bytes) (i : Nat) (params : List (Bytes × Bytes))
    (hinv : rt.handle m dec method methodParam rawPath = .invoke i params) (r : Bytes × Bytes) (hi : table[i]? = some r)
    (ts : List Tok) (hts : Reads w.word r.2 ts) (hp : Plain ts) :
    ∃ bind, Fits w.word ts (dec rawPath) bind ∧ params.map (·.2) = bind.map (·.2) ∧ ((bind.map (·.1)).Pairwise (· ≠ ·) → (params = bind ↔ ParamsFirst ts)) ∧
      params.map (·.1) = (ts.filterMap fun | .param n => some n | _ => none) ++ (ts.filterMap fun | .splat n => some n | _ => none) := by
  obtain ⟨caps, h1, rfl⟩ := invoke_params w m hm table rt hrt dec method methodParam rawPath i params hinv r hi ts hts hp
  have hl := caps_length h1
  have hl2 := names_length ts
  rw [bindNames_zip (by omega)]
  refine ⟨_, fits_iff.2 ⟨caps, h1, hl, rfl⟩, ?_, ?_, ?_⟩
  · rw [List.map_snd_zip (by omega), List.map_snd_zip (by omega)]
  · rw [List.map_fst_zip (by omega)]
    intro hd
    refine ⟨fun h => names_first hd ?_, fun h => by rw [names_split h]⟩
    have := congrArg (List.map (·.1)) h
    rwa [List.map_fst_zip (by omega), List.map_fst_zip (by omega)] at this
  · rw [List.map_fst_zip (by omega)]
    rfl

/-- C31, for route paths in which all `:names` come before all `*names`, the names are different and no other character is
special: when the route is invoked for a request, the path consists of the parts of the route path, and `requestParamValue` of each
name is the piece that stands for it; every other parameter is as before. -/
theorem C31_bind_partial (w : Words) (m : Engine) (hm : GoodEngine w.word m) (table : List (Bytes × Bytes)) (rt : Router)
    (hrt : rt.routes = routesOf w.word table) (dec : Bytes → Bytes) (method methodParam rawPath : Bytes) (i : Nat) (params : List (Bytes × Bytes))
    (hinv : rt.handle m dec method methodParam rawPath = .invoke i params) (r : Bytes × Bytes) (hi : table[i]? = some r)
    (ts : List Tok) (hts : Reads w.word r.2 ts) (hp : Plain ts) (hpf : ParamsFirst ts) (hd : (namesOf ts).Pairwise fun a b => ¬ SameCI a b)
    (s : Conf) (he : s.inEnv = true) (hf : s.c.fault = none) :
    ∃ bind s', Fits w.word ts (dec rawPath) bind ∧ s.run (setAll params) = some s' ∧ s'.stack = s.stack ∧
      (∀ b ∈ bind, (s'.c.requestParamValue b.1).1 = b.2) ∧
      ∀ n, (∀ b ∈ bind, ¬ SameCI n b.1) → (s'.c.requestParamValue n).1 = (s.c.requestParamValue n).1 := by
  have hpar := invoke_params w m hm table rt hrt dec method methodParam rawPath i params hinv r hi ts hts hp
  obtain ⟨caps, h1, rfl⟩ := hpar
  have hl := caps_length h1
  rw [names_split hpf, bindNames_zip hl]
  have hpw : ((namesOf ts).zip caps).Pairwise fun a b => ¬ SameCI a.1 b.1 := by
    have : ((namesOf ts).zip caps).map (·.1) = namesOf ts := by
      rw [List.map_fst_zip]; omega
    rw [← List.pairwise_map (f := Prod.fst) (R := fun a b => ¬ SameCI a b), this]
    exact hd
  obtain ⟨k1, k2⟩ := setAll_lookup _ hpw s.c
  exact ⟨_, _, fits_iff.2 ⟨caps, h1, hl, rfl⟩, setAll_run _ s he hf, rfl, k1, k2⟩

/-- A table whose paths are plain, with the engine of the model; the hypotheses of `C30_plain_paths` and `C31_bind_partial` can be met. -/
example : ({ routes := routesOf plainWords.word [(b!"GET", b!"/a"), (b!"put", b!"/u/:id/*rest"), ([], b!"/u/*x")] } : Router).handle
    (greedyEngine plainWords.word) percentDecode b!"PUT" [] b!"/u/a%2db/c/d" =
    .invoke 1 [(b!"id", b!"a-b"), (b!"rest", b!"c/d")] := by decide +kernel
example : ({ routes := routesOf plainWords.word [(b!"GET", b!"/a"), (b!"POST", b!"/a"), ([], b!"/u/*x")], methodMismatch := .return4xx } : Router).handle
    (greedyEngine plainWords.word) percentDecode b!"PUT" [] b!"/a" =
    .answer (.writeResponse 405 [⟨b!"Allow", b!"GET, POST"⟩] []) := by decide +kernel
example : Reads plainWords.word b!"/u/:id/*rest" [.lit 47, .lit 117, .lit 47, .param b!"id", .lit 47, .splat b!"rest"] :=
  .lit _ _ _ (by rintro (h | h) <;> cases h) (.lit _ _ _ (by rintro (h | h) <;> cases h) (.lit _ _ _ (by rintro (h | h) <;> cases h)
    (.param b!"id" b!"/*rest" _ (by decide) (by decide) (by intro c h; cases h; decide)
      (.lit _ _ _ (by rintro (h | h) <;> cases h) (.splat b!"rest" [] _ (by decide) (by decide) (by intro c h; cases h) .nil)))))

/-- C31 fails when a `*name` comes before a `:name`: for the route `/*dir/:file` the parameter `dir` gets the piece that stands for
`:file` and the other way round, for every engine. -/
theorem C31_violation (w : Words) (m : Engine) (hm : GoodEngine w.word m) :
    Reads w.word b!"/*dir/:file" [.lit 47, .splat b!"dir", .lit 47, .param b!"file"] ∧
    (∀ bind, Fits w.word [.lit 47, .splat b!"dir", .lit 47, .param b!"file"] b!"/a.b/c" bind → bind = [(b!"dir", b!"a.b"), (b!"file", b!"c")]) ∧
    ({ routes := routesOf w.word [([], b!"/*dir/:file")] } : Router).handle m id b!"GET" [] b!"/a.b/c" =
      .invoke 0 [(b!"file", b!"a.b"), (b!"dir", b!"c")] := by
  have hw : ∀ b : Byte, b < 128 → w.word b = plainWords.word b := fun b hb => (w.ascii b hb).trans (plainWords.ascii b hb).symm
  have hr : Reads w.word b!"/*dir/:file" [.lit 47, .splat b!"dir", .lit 47, .param b!"file"] := by
    refine .lit _ _ _ (by rintro (h | h) <;> cases h) (.splat b!"dir" b!"/:file" _ (by decide) ?_ ?_ (.lit _ _ _ (by rintro (h | h) <;> cases h) (.param b!"file" [] _ (by decide) ?_ ?_ .nil)))
    · intro c hc
      have h128 : c < 128 := by revert c; decide
      rw [hw c h128]; revert c; decide
    · intro c hc; cases hc; rw [hw _ (by decide)]; decide
    · intro c hc
      have h128 : c < 128 := by revert c; decide
      rw [hw c h128]; revert c; decide
    · intro c hc; cases hc
  have hu : ∀ bind, Fits w.word [.lit 47, .splat b!"dir", .lit 47, .param b!"file"] b!"/a.b/c" bind → bind = [(b!"dir", b!"a.b"), (b!"file", b!"c")] := by
    intro bind h
    generalize e : b!"/a.b/c" = path at h
    cases h with
    | lit _ _ s bind h =>
      obtain ⟨-, e⟩ := List.cons.inj e
      cases h with
      | splat n v _ s bind h =>
        cases h with
        | lit _ _ s bind h =>
          cases h with
          | param n v' _ s bind hne hv h =>
            cases h with
            | nil =>
              rw [List.append_nil] at e
              have hns : (47 : Byte) ∉ v' := by
                intro hc
                rcases hv _ hc with h | h | h
                · rw [hw _ (by decide)] at h; revert h; decide
                · cases h
                · cases h
              have : v = b!"a.b" ∧ v' = b!"c" := by
                have hlen := congrArg List.length e
                simp at hlen
                match v, v', e, hlen with
                | [], v', e, _ => exact absurd (List.cons.inj e).1 (by decide)
                | [a], v', e, _ => have := (List.cons.inj (List.cons.inj e).2).1; exact absurd this (by decide)
                | [a, b], v', e, _ =>
                  have := (List.cons.inj (List.cons.inj (List.cons.inj e).2).2).1; exact absurd this (by decide)
                | [a, b, c], v', e, _ =>
                  simp only [List.cons_append, List.nil_append, List.cons.injEq] at e
                  obtain ⟨rfl, rfl, rfl, -, rfl⟩ := e
                  exact ⟨rfl, rfl⟩
                | [a, b, c, d], v', e, h =>
                  have hl : v'.length = 0 := by simp at h; omega
                  exact absurd (List.length_eq_zero_iff.1 hl) hne
                | a :: b :: c :: d :: x :: l, v', e, h => simp at h; omega
              rw [this.1, this.2]
  refine ⟨hr, hu, ?_⟩
  have hpl : Plain [Tok.lit 47, .splat b!"dir", .lit 47, .param b!"file"] := by
    intro b hb
    have : b = 47 := by simpa using hb
    subst this; decide
  have hgood : ∃ caps, m (reText ([Tok.lit 47, .splat b!"dir", .lit 47, .param b!"file"].map itemOf)) b!"/a.b/c" = some caps := by
    refine hm.complete _ _ [b!"a.b", b!"c"] (items_plain hpl) ?_
    refine .lit _ _ _ _ (.splat b!"a.b" _ b!"/c" _ (.lit _ _ _ _ (.param b!"c" _ [] _ (by decide) ?_ .nil)))
    intro c hc
    have : c = 99 := by simpa using hc
    subst this
    left; rw [hw _ (by decide)]; decide
  obtain ⟨caps, hc⟩ := hgood
  have hmt := hm.sound _ _ _ (items_plain hpl) hc
  have hcl := caps_length hmt
  have hb := hu _ (fits_iff.2 ⟨caps, hmt, hcl, rfl⟩)
  have hcaps : caps = [b!"a.b", b!"c"] := by
    match caps, hcl, hb with
    | [x, y], _, hb =>
      have : [(b!"dir", x), (b!"file", y)] = [(b!"dir", b!"a.b"), (b!"file", b!"c")] := hb
      simp only [List.cons.injEq, Prod.mk.injEq] at this
      rw [this.1.2, this.2.1.2]
  subst hcaps
  have hroutes : routesOf w.word [([], b!"/*dir/:file")] =
      [⟨[], reText ([Tok.lit 47, .splat b!"dir", .lit 47, .param b!"file"].map itemOf), [b!"file", b!"dir"]⟩] := by
    rw [routesOf_eq]
    simp only [List.map_cons, List.map_nil]
    rw [pathToRegExp_plain w hr hpl]
    rfl
  simp only [Router.handle, hroutes, routeLoop, id_eq, hc]
  rfl

/-- Characters of a route path that are special in regular expressions are not taken literally: the route `/a.b` accepts the path
`/aXb`, although no way of reading the route path lets it match. -/
theorem C30_special_characters (w : Words) (m : Engine) (hm : GoodEngine w.word m) :
    (∀ bind, ¬ PathMatches w.word b!"/a.b" b!"/aXb" bind) ∧
    ∃ params, ({ routes := routesOf w.word [([], b!"/a.b")] } : Router).handle m id b!"GET" [] b!"/aXb" = .invoke 0 params := by
  have hw : ∀ b : Byte, b < 128 → w.word b = plainWords.word b := fun b hb => (w.ascii b hb).trans (plainWords.ascii b hb).symm
  have hr : Reads w.word b!"/a.b" [.lit 47, .lit 97, .lit 46, .lit 98] :=
    .lit _ _ _ (by rintro (h | h) <;> cases h) (.lit _ _ _ (by rintro (h | h) <;> cases h) (.lit _ _ _ (by rintro (h | h) <;> cases h) (.lit _ _ _ (by rintro (h | h) <;> cases h) .nil)))
  constructor
  · rintro bind ⟨ts, h1, h2⟩
    cases reads_unique hr h1
    generalize e : b!"/aXb" = path at h2
    cases h2 with
    | lit _ _ _ _ h2 => cases h2 with
      | lit _ _ _ _ h2 => cases h2 with
        | lit _ _ _ _ h2 => simp at e
  · have htext : (pathToRegExp w.word b!"/a.b").1 = reText [.lit 47, .lit 97, .any, .lit 98] ∧ (pathToRegExp w.word b!"/a.b").2 = [] := by
      obtain ⟨a1, a2⟩ := mark_skip (w := w.word) 58 paramSource (a := b!"/a.b") (rest := []) (by decide)
      obtain ⟨b1, b2⟩ := mark_skip (w := w.word) 42 splatSource (a := b!"/a.b") (rest := []) (by decide)
      simp only [List.append_nil] at a1 a2 b1 b2
      rw [markNames] at a1 b1
      rw [markReplace] at a2 b2
      simp only [List.append_nil] at a2 b2
      simp only [pathToRegExp, a1, a2, b1, b2]
      exact ⟨rfl, rfl⟩
    obtain ⟨caps, hc⟩ := hm.complete [.lit 47, .lit 97, .any, .lit 98] b!"/aXb" [] (by intro b hb; simp at hb; rcases hb with rfl | rfl | rfl <;> decide)
      (.lit _ _ _ _ (.lit _ _ _ _ (.any _ _ _ _ (.lit _ _ _ _ .nil))))
    refine ⟨bindNames [] caps, ?_⟩
    simp only [Router.handle, routesOf_eq, List.map_cons, List.map_nil, htext.1, htext.2, routeLoop, id_eq, hc]
    rfl

/-- C30: when the router answers itself, the response is completed at once. -/
theorem C30_answers (m : Engine) (dec : Bytes → Bytes) (rt : Router) (method methodParam rawPath : Bytes) (a : Call)
    (h : rt.handle m dec method methodParam rawPath = .answer a)
    (s : Conf) (hr : Reach Proper s) (he : s.inEnv = true) (hf : s.c.fault = none) (hst : s.c.st = .sendingHeaders) :
    ∃ (status : Int) (hs : Headers) (n : Nat) (s' : Conf) (hd : RespHead), (status = 404 ∧ hs = [] ∨ status = 405 ∧ ∃ v, hs = [⟨b!"Allow", v⟩]) ∧
      s.run (.call a :: taus n) = some s' ∧ s'.inEnv = true ∧ HeadSpec s.c.req 0 status hs hd ∧
      s'.c.log = s.c.log ++ [.head hd, .completed] := by
  unfold Router.handle at h
  split at h
  · cases h
  · split at h <;> cases h
    obtain ⟨n, s', hd, h1, h2, -, h3, h4⟩ := C18_writeResponse s hr he hf hst 404 [] [] rfl (by decide)
    exact ⟨404, [], n, s', hd, .inl ⟨rfl, rfl⟩, h1, h2, h3, by rw [h4]; simp⟩
  · split at h <;> cases h
    obtain ⟨n, s', hd, h1, h2, -, h3, h4⟩ := C18_writeResponse s hr he hf hst 405 [⟨b!"Allow", _⟩] [] rfl (by decide)
    exact ⟨405, _, n, s', hd, .inr ⟨rfl, _, rfl⟩, h1, h2, h3, by rw [h4]; simp⟩

end Pillow.Props
