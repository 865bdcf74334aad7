import Verif.Spec.LogEntry
import Verif.Lemmas.Number
import Verif.Lemmas.ReplySteps
import Verif.Lemmas.Serve
import Verif.Lemmas.RunsFacts
import Verif.Props.Handlers
import Verif.Props.Forward
/-!
# C70: what a log entry says
-/
namespace Pillow.Props
open Pillow Pillow.Spec

/-! ## `QString::arg` -/

/-- A text that cannot continue a place marker begun before it. -/
def Inert (y : Bytes) : Prop := ∀ c, y.head? = some c → c ≠ 76 ∧ isDigitValue c = false

theorem digitsMarker_inert {y : Bytes} (hy : Inert y) : digitsMarker y = none := by
  cases y with
  | nil => rfl
  | cons c y =>
    have := (hy c rfl).2
    cases y <;> simp [digitsMarker, this]

theorem digitsMarker_append (x y : Bytes) (hy : Inert y) : digitsMarker (x ++ y) = digitsMarker x := by
  match x with
  | [] => exact digitsMarker_inert hy
  | [d] =>
    cases y with
    | nil => rfl
    | cons c y =>
      have := (hy c rfl).2
      simp [digitsMarker, this]
  | d :: e :: x => rfl

theorem marker_not76 {c : Byte} (h : c ≠ 76) (s : Bytes) : marker (c :: s) = digitsMarker (c :: s) := by
  unfold marker
  split
  · rename_i e; injection e with e1 _; exact absurd e1 h
  · rfl

theorem marker_append (x y : Bytes) (hy : Inert y) : marker (x ++ y) = marker x := by
  cases x with
  | nil =>
    cases y with
    | nil => rfl
    | cons c y =>
      show marker (c :: y) = _
      rw [marker_not76 (hy c rfl).1, digitsMarker_inert hy]; rfl
  | cons c x =>
    by_cases h : c = 76
    · subst h
      show (digitsMarker (x ++ y)).map _ = (digitsMarker x).map _
      rw [digitsMarker_append x y hy]
    · show marker (c :: (x ++ y)) = _
      rw [marker_not76 h, marker_not76 h]
      exact digitsMarker_append (c :: x) y hy

theorem marks_append (x y : Bytes) (hy : Inert y) : marks (x ++ y) = marks x ++ marks y := by
  induction x with
  | nil => rfl
  | cons c x ih =>
    have e : (if c = 37 then marker (x ++ y) else none) = (if c = 37 then marker x else none) := by rw [marker_append x y hy]
    simp only [List.cons_append, marks, e]
    split <;> simp [ih]

theorem marks_plain {x : Bytes} (h : 37 ∉ x) : marks x = [] := by
  induction x with
  | nil => rfl
  | cons c x ih =>
    have : c ≠ 37 := fun e => h (by simp [e])
    simp only [marks, this, if_false]
    exact ih fun e => h (by simp [e])

theorem marks_pass {x : Bytes} (h : 37 ∉ x) (y : Bytes) : marks (x ++ y) = marks y := by
  induction x with
  | nil => rfl
  | cons c x ih =>
    have : c ≠ 37 := fun e => h (by simp [e])
    simp only [List.cons_append, marks, this, if_false]
    exact ih fun e => h (by simp [e])

theorem marker_len {s : Bytes} {m : Nat × Nat} (h : marker s = some m) : m.2 ≤ s.length := by
  have hd : ∀ {s : Bytes} {m : Nat × Nat}, digitsMarker s = some m → m.2 ≤ s.length := by
    intro s m h
    match s with
    | [] => cases h
    | [d] => simp only [digitsMarker] at h; split at h <;> simp at h; subst h; simp
    | d :: e :: s =>
      simp only [digitsMarker] at h
      split at h
      · split at h <;> simp at h <;> subst h <;> simp
      · cases h
  unfold marker at h
  split at h
  · rename_i t
    cases k : digitsMarker t with
    | none => rw [k] at h; cases h
    | some q => rw [k] at h; simp at h; subst h; have := hd k; simp; omega
  · exact hd h

theorem replace_append (n : Nat) (a : Bytes) (x y : Bytes) (hy : Inert y) : ∀ k, k ≤ x.length → replaceMarks n a k (x ++ y) = replaceMarks n a k x ++ replaceMarks n a 0 y := by
  induction x with
  | nil => intro k hk; have : k = 0 := by simpa using hk
           subst this; simp [replaceMarks]
  | cons c x ih =>
    intro k hk
    cases k with
    | succ k => exact ih k (by simpa using hk)
    | zero =>
      have e : (if c = 37 then marker (x ++ y) else none) = (if c = 37 then marker x else none) := by rw [marker_append x y hy]
      simp only [List.cons_append, replaceMarks, e]
      split
      · rename_i m hm
        have hm' : marker x = some m := by split at hm; exact hm; cases hm
        split
        · rw [ih _ (marker_len hm')]; simp
        · rw [ih 0 (Nat.zero_le _)]; simp
      · rw [ih 0 (Nat.zero_le _)]; simp

theorem replace_other (n : Nat) (a : Bytes) (x : Bytes) (h : n ∉ marks x) : replaceMarks n a 0 x = x := by
  induction x with
  | nil => rfl
  | cons c x ih =>
    simp only [marks] at h
    simp only [replaceMarks]
    split at h <;> rename_i hm
    · rw [if_neg (fun e => h (by simp [e])), ih fun e => h (by simp [e])]
    · rw [ih h]

theorem replace_pass (n : Nat) (a : Bytes) {x : Bytes} (h : 37 ∉ x) (y : Bytes) : replaceMarks n a 0 (x ++ y) = x ++ replaceMarks n a 0 y := by
  induction x with
  | nil => rfl
  | cons c x ih =>
    have : c ≠ 37 := fun e => h (by simp [e])
    simp only [List.cons_append, replaceMarks, this, if_false]
    rw [ih fun e => h (by simp [e])]

theorem lowest_mem (l : List Nat) : ∀ q, lowest l = some q → q ∈ l := by
  induction l with
  | nil => intro q h; cases h
  | cons a l ih =>
    intro q h
    simp only [lowest] at h
    split at h
    · injection h with h; simp [h]
    · rename_i m hm
      injection h with h
      have := ih m hm
      rcases Nat.le_total a m with e | e
      · rw [Nat.min_eq_left e] at h; simp [h]
      · rw [Nat.min_eq_right e] at h; subst h; simp [this]

theorem lowest_eq : ∀ (l : List Nat) (n : Nat), n ∈ l → (∀ m ∈ l, n ≤ m) → lowest l = some n
  | [], _, h, _ => by cases h
  | k :: l, n, h, hm => by
    simp only [lowest]
    by_cases hl : n ∈ l
    · rw [lowest_eq l n hl fun m hm' => hm m (by simp [hm'])]
      have := hm k (by simp)
      simp [Nat.min_eq_right this]
    · have hk : n = k := by rcases List.mem_cons.1 h with e | e; exact e; exact absurd e hl
      subst hk
      have := lowest_mem l
      cases k' : lowest l with
      | none => rfl
      | some q =>
        have := hm q (by simp [this q k'])
        simp [Nat.min_eq_left this]

/-- All place markers of the text are above 8, so that none of the eight arguments replaces them. -/
def Free (x : Bytes) : Prop := ∀ n ∈ marks x, 8 < n

theorem free_plain {x : Bytes} (h : 37 ∉ x) : Free x := by intro n hn; rw [marks_plain h] at hn; cases hn

theorem free_append {x y : Bytes} (hx : Free x) (hy : Free y) (hi : Inert y) : Free (x ++ y) := by
  intro n hn
  rw [marks_append x y hi] at hn
  rcases List.mem_append.1 hn with h | h
  · exact hx n h
  · exact hy n h

/-- One argument: what is before the marker is free of low ones, what is behind it has higher ones only. -/
theorem qarg_step (x pre rest a : Bytes) (k : Nat) (hk : k ≤ 8) (d : Byte) (hd : marker [d] = some (k, 1)) (hx : Free x) (hpre : 37 ∉ pre) (hpi : Inert pre) (hr : Inert rest)
    (hrm : ∀ n ∈ marks rest, k < n) (hne : pre = [] → x = []) : qarg (x ++ (pre ++ 37 :: d :: rest)) a = x ++ (pre ++ (a ++ rest)) := by
  have hI : Inert (pre ++ 37 :: d :: rest) := by
    cases pre with
    | nil => intro c hc; simp at hc; subst hc; exact ⟨by decide, by decide⟩
    | cons p pre => intro c hc; exact hpi c (by simpa using hc)
  have hmk : marker (d :: rest) = some (k, 1) := by rw [← hd]; exact marker_append [d] rest hr
  have hd37 : d ≠ 37 := by rintro rfl; cases hd
  have hm : marks (37 :: d :: rest) = k :: marks rest := by
    simp only [marks, if_true, hmk, hd37, if_false]
  have hall : marks (x ++ (pre ++ 37 :: d :: rest)) = marks x ++ k :: marks rest := by
    rw [marks_append _ _ hI, marks_pass hpre, hm]
  have hlow : lowest (marks (x ++ (pre ++ 37 :: d :: rest))) = some k := by
    apply lowest_eq
    · rw [hall]; simp
    · rw [hall]
      intro m hm
      rcases List.mem_append.1 hm with h | h
      · have := hx m h; omega
      · rcases List.mem_cons.1 h with e | e
        · omega
        · have := hrm m e; omega
  unfold qarg
  rw [hlow]
  dsimp only
  rw [replace_append k a x _ hI 0 (Nat.zero_le _), replace_other k a x (fun h => by have := hx k h; omega), replace_pass k a hpre]
  congr 2
  simp only [replaceMarks, if_true, hmk]
  rw [replace_other k a rest (fun h => by have := hrm k h; omega)]

/-! ## Numbers -/

theorem numberText_eq (n : Int) : numberText n = renderInt 10 n := by
  unfold numberText renderInt
  rfl

theorem digits_chars (n : Nat) : ∀ c ∈ digits 10 n, 48 ≤ c ∧ c ≤ 57 := by
  induction n using digits_ind 10 (by decide) with
  | h0 n hn =>
    rw [digits_lt hn]
    have : ∀ d, d < 10 → 48 ≤ digitChar d ∧ digitChar d ≤ 57 := by decide
    simpa using this n hn
  | h1 n hn ih =>
    rw [digits_ge (by decide) hn]
    have : ∀ d, d < 10 → 48 ≤ digitChar d ∧ digitChar d ≤ 57 := by decide
    intro c hc
    rcases List.mem_append.1 hc with h | h
    · exact ih c h
    · simp at h; subst h; exact this _ (Nat.mod_lt _ (by decide))

theorem decimal_eq (n : Nat) : decimal n = digits 10 n := rfl

theorem decimal_no (n : Nat) (b : Byte) (h : ¬ (48 ≤ b ∧ b ≤ 57)) : b ∉ decimal n := fun hm => h (digits_chars n b hm)

theorem number_no (n : Int) (b : Byte) (h : ¬ (48 ≤ b ∧ b ≤ 57)) (h' : b ≠ 45) : b ∉ numberText n := by
  unfold numberText
  split <;> simp [decimal_no _ b h, h']

theorem seconds_no (ms : Nat) (b : Byte) (h : ¬ (48 ≤ b ∧ b ≤ 57)) (h' : b ≠ 46) : b ∉ secondsText ms := by
  unfold secondsText
  simp [decimal_no _ b h, h']

theorem number_text (n : Int) : NumberText n (numberText n) := readInt_renderInt 10 (by decide) (by decide) n

theorem seconds_text (ms : Nat) : SecondsText ms (secondsText ms) := by
  refine ⟨decimal (ms / 1000), digitChar (ms % 1000 / 100), digitChar (ms % 100 / 10), digitChar (ms % 10), ?_, readNat_digits 10 (by decide) (by decide) _, ?_⟩
  · unfold secondsText
    simp only [decimal_eq]
    rw [digits_lt (n := ms % 1000 / 100) (by omega), digits_lt (n := ms % 100 / 10) (by omega), digits_lt (n := ms % 10) (by omega)]
    simp
  · have h1 : ms % 1000 / 100 < 10 := by omega
    have h2 : ms % 100 / 10 < 10 := by omega
    have h3 : ms % 10 < 10 := by omega
    have e : ms % 1000 = 10 * (10 * (ms % 1000 / 100) + ms % 100 / 10) + ms % 10 := by omega
    refine Eq.trans ?_ (congrArg some e.symm)
    clear e
    generalize ms % 1000 / 100 = a at *
    generalize ms % 100 / 10 = b at *
    generalize ms % 10 = c at *
    simp [readNat, digitChar_hexVal a (by omega), digitChar_hexVal b (by omega), digitChar_hexVal c (by omega), h1, h2, h3]

/-! ## The entry -/

theorem free_next {x pre a : Bytes} (hx : Free x) (h1 : 37 ∉ pre) (h2 : Inert pre) (h3 : pre ≠ []) (ha : Free a) : Free (x ++ (pre ++ a)) := by
  refine free_append hx ?_ ?_
  · intro n hn; rw [marks_pass h1] at hn; exact ha n hn
  · cases pre with
    | nil => exact absurd rfl h3
    | cons p pre => intro c hc; exact h2 c (by simpa using hc)

/-- A format string: texts before the markers `%k`, `%(k+1)`, …, and a last text. -/
def template : Nat → List (Bytes × Bytes) → Bytes → Bytes
  | _, [], last => last
  | k, p :: l, last => p.1 ++ 37 :: UInt8.ofNat (48 + k) :: template (k + 1) l last

/-- … with the arguments in the place of the markers. -/
def filled : List (Bytes × Bytes) → Bytes → Bytes
  | [], last => last
  | p :: l, last => p.1 ++ (p.2 ++ filled l last)

theorem marker_digit : ∀ k, k ≤ 8 → marker [UInt8.ofNat (48 + k)] = some (k, 1) ∧ UInt8.ofNat (48 + k) ≠ (37 : Byte) := by decide

theorem template_facts (last : Bytes) (hl : Inert last) (hp : 37 ∉ last) : ∀ (l : List (Bytes × Bytes)) (k : Nat), k + l.length ≤ 9 → (∀ p ∈ l, 37 ∉ p.1 ∧ Inert p.1) →
    Inert (template k l last) ∧ ∀ n ∈ marks (template k l last), k ≤ n
  | [], k, _, _ => ⟨hl, by rw [template, marks_plain hp]; simp⟩
  | p :: l, k, hk, h => by
    obtain ⟨i1, i2⟩ := template_facts last hl hp l (k + 1) (by simp at hk; omega) fun q hq => h q (by simp [hq])
    obtain ⟨p1, p2⟩ := h p (by simp)
    obtain ⟨d1, d2⟩ := marker_digit k (by simp at hk; omega)
    refine ⟨?_, ?_⟩
    · unfold template
      cases hpre : p.1 with
      | nil => intro c hc; simp at hc; subst hc; exact ⟨by decide, by decide⟩
      | cons c t => intro c' hc; rw [hpre] at p2; exact p2 c' (by simpa using hc)
    · unfold template
      rw [marks_pass p1]
      have hm : marker (UInt8.ofNat (48 + k) :: template (k + 1) l last) = some (k, 1) := by rw [← d1]; exact marker_append [_] _ i1
      intro n hn
      simp only [marks, if_true, hm, d2, if_false] at hn
      rcases List.mem_cons.1 hn with e | e
      · omega
      · have := i2 n e; omega

/-- All arguments, one after the other. -/
theorem fill (last : Bytes) (hl : Inert last) (hp : 37 ∉ last) : ∀ (l : List (Bytes × Bytes)) (k : Nat) (x : Bytes), k + l.length ≤ 9 → Free x →
    (∀ p ∈ l, 37 ∉ p.1 ∧ Inert p.1 ∧ Free p.2) → (∀ p ∈ l.tail, p.1 ≠ []) → (∀ p, l.head? = some p → p.1 = [] → x = []) →
    (l.map (·.2)).foldl qarg (x ++ template k l last) = x ++ filled l last
  | [], k, x, _, _, _, _, _ => rfl
  | p :: l, k, x, hk, hx, h, ht, hh => by
    obtain ⟨i1, i2⟩ := template_facts last hl hp l (k + 1) (by simp at hk; omega) fun q hq => ⟨(h q (by simp [hq])).1, (h q (by simp [hq])).2.1⟩
    obtain ⟨p1, p2, p3⟩ := h p (by simp)
    obtain ⟨d1, -⟩ := marker_digit k (by simp at hk; omega)
    have hs := qarg_step x p.1 (template (k + 1) l last) p.2 k (by simp at hk; omega) _ d1 hx p1 p2 i1 (fun n hn => by have := i2 n hn; omega) (hh p rfl)
    have e1 : x ++ (p.1 ++ (p.2 ++ template (k + 1) l last)) = (x ++ (p.1 ++ p.2)) ++ template (k + 1) l last := by simp
    have hfree : Free (x ++ (p.1 ++ p.2)) := by
      by_cases e : p.1 = []
      · rw [hh p rfl e, e]; simpa using p3
      · exact free_next hx p1 p2 e p3
    have hnext := fill last hl hp l (k + 1) (x ++ (p.1 ++ p.2)) (by simp at hk; omega) hfree (fun q hq => h q (by simp [hq])) (fun q hq => ht q (List.mem_of_mem_tail hq))
      (fun q hq e => absurd e (ht q (List.mem_of_mem_head? hq)))
    simp only [List.map_cons, List.foldl_cons]
    rw [show template k (p :: l) last = p.1 ++ 37 :: UInt8.ofNat (48 + k) :: template (k + 1) l last from rfl, hs, e1, hnext]
    simp [filled]

theorem digit_read : ∀ d : Byte, isDigitValue d = true → hexVal d = some (d.toNat - 48) ∧ d.toNat - 48 < 10 := by
  apply byte_forall
  decide +kernel

theorem isDigitValue_iff (d : Byte) : isDigitValue d = true ↔ 48 ≤ d ∧ d ≤ 57 := by simp [isDigitValue]

theorem digitsMarker_marks {s : Bytes} {m : Nat × Nat} (h : digitsMarker s = some m) :
    ∃ d rest, s = d ++ rest ∧ readNat 10 d = some m.1 ∧ (d.length = 2 ∨ (d.length = 1 ∧ ∀ e, rest.head? = some e → ¬ (48 ≤ e ∧ e ≤ 57))) := by
  match s with
  | [] => cases h
  | [d] =>
    simp only [digitsMarker] at h
    split at h
    · rename_i hd
      injection h with h; subst h
      obtain ⟨h1, h2⟩ := digit_read d hd
      exact ⟨[d], [], rfl, by simp [readNat, h1, h2], .inr ⟨rfl, by simp⟩⟩
    · cases h
  | d :: e :: s =>
    simp only [digitsMarker] at h
    split at h
    · rename_i hd
      obtain ⟨h1, h2⟩ := digit_read d hd
      split at h
      · rename_i he
        obtain ⟨h3, h4⟩ := digit_read e he
        injection h with h; subst h
        exact ⟨[d, e], s, rfl, by simp [readNat, h1, h2, h3, h4], .inl rfl⟩
      · rename_i he
        injection h with h; subst h
        refine ⟨[d], e :: s, rfl, by simp [readNat, h1, h2], .inr ⟨rfl, ?_⟩⟩
        intro e' h' hc
        simp at h'; subst h'
        exact he ((isDigitValue_iff _).2 hc)
    · cases h

theorem marker_marks {s : Bytes} {m : Nat × Nat} (h : marker s = some m) : MarkerAt s m.1 := by
  unfold marker at h
  split at h
  · rename_i t
    cases k : digitsMarker t with
    | none => rw [k] at h; cases h
    | some q =>
      rw [k] at h; simp at h; subst h
      obtain ⟨d, rest, rfl, h2, h3⟩ := digitsMarker_marks k
      exact ⟨b!"L", d, rest, .inr rfl, rfl, h2, h3⟩
  · obtain ⟨d, rest, h1, h2, h3⟩ := digitsMarker_marks h
    exact ⟨[], d, rest, .inl rfl, h1, h2, h3⟩

theorem free_of_unmarked : ∀ {s : Bytes}, Unmarked s → Free s
  | [], _ => by intro n hn; cases hn
  | c :: s, h => by
    have hs : Free s := free_of_unmarked fun pre suf n e hm => h (c :: pre) suf n (by rw [e]; rfl) hm
    intro n hn
    simp only [marks] at hn
    split at hn
    · rename_i m hm
      split at hm
      · rename_i hc
        subst hc
        rcases List.mem_cons.1 hn with e | e
        · subst e; exact h [] s _ rfl (marker_marks hm)
        · exact hs n e
      · cases hm
    · exact hs n hn

theorem qtext_eq {s : Bytes} (h : 0 ∉ s) : qtext s = s := by
  unfold qtext
  induction s with
  | nil => rfl
  | cons b s ih =>
    have hb : b ≠ 0 := fun e => h (by simp [e])
    rw [List.takeWhile_cons_of_pos (by simpa using hb), ih fun e => h (by simp [e])]

/-- **C70**, the layout: an entry shows the address, the date, the method, the uri and the version, the status, the length and the time, in this order, whatever they are, if the texts have no
place markers up to `%8` and the request is shown without NUL. What is missing: `C70_marker_violation`. -/
theorem C70_layout_partial (kind : LogKind) (addr date : Bytes) (l : LogLine) (ms : Nat) (hk : kind = .begin ↔ l.outcome = none) (h0 : 0 ∉ l.method ∧ 0 ∉ l.uri ∧ 0 ∉ l.version)
    (ha : Unmarked addr) (hd : Unmarked date) (hm : Unmarked l.method) (hu : Unmarked l.uri) (hv : Unmarked l.version) :
    Entry kind addr date l.method l.uri l.version l.outcome ms (logEntry kind addr date l ms) := by
  have I : ∀ (c : Byte) (s : Bytes), c ≠ 76 → isDigitValue c = false → Inert (c :: s) := by
    intro c s h1 h2 d hd; simp at hd; subst hd; exact ⟨h1, h2⟩
  have fa := free_of_unmarked ha
  have fd := free_of_unmarked hd
  have fm := free_of_unmarked hm
  have fu := free_of_unmarked hu
  have fv := free_of_unmarked hv
  have ft : 37 ∉ tagOf kind ∧ Inert (tagOf kind) := by
    cases kind
    · exact ⟨by decide, by intro c hc; cases hc⟩
    · exact ⟨by decide, I _ _ (by decide) (by decide)⟩
    · exact ⟨by decide, I _ _ (by decide) (by decide)⟩
    · exact ⟨by decide, I _ _ (by decide) (by decide)⟩
  cases ho : l.outcome with
  | none =>
    have hk' := hk.2 ho
    subst hk'
    have := fill b!"\" - - -" (I _ _ (by decide) (by decide)) (by decide)
      [(tagOf .begin, addr), (b!" - - [", date), (b!"] \"", l.method), (b!" ", l.uri), (b!" ", l.version)] 1 [] (by simp) (free_plain (by simp))
      (by
        intro p hp
        simp only [List.mem_cons, List.not_mem_nil, or_false] at hp
        rcases hp with rfl | rfl | rfl | rfl | rfl
        · exact ⟨ft.1, ft.2, fa⟩
        · exact ⟨by simp, I _ _ (by decide) (by decide), fd⟩
        · exact ⟨by simp, I _ _ (by decide) (by decide), fm⟩
        · exact ⟨by simp, I _ _ (by decide) (by decide), fu⟩
        · exact ⟨by simp, I _ _ (by decide) (by decide), fv⟩)
      (by simp) (fun _ _ _ => rfl)
    refine ⟨b!"- - -", ?_, rfl⟩
    unfold logEntry
    rw [qtext_eq h0.1, qtext_eq h0.2.1, qtext_eq h0.2.2]
    refine Eq.trans this ?_
    simp [filled]
  | some o =>
    obtain ⟨st, len⟩ := o
    have hkb : kind ≠ .begin := fun e => by rw [hk.1 e] at ho; cases ho
    have := fill [] (by intro c hc; cases hc) (by simp)
      [(tagOf kind, addr), (b!" - - [", date), (b!"] \"", l.method), (b!" ", l.uri), (b!" ", l.version), (b!"\" ", numberText st), (b!" ", numberText len), (b!" ", secondsText ms)] 1 [] (by simp)
      (free_plain (by simp))
      (by
        intro p hp
        simp only [List.mem_cons, List.not_mem_nil, or_false] at hp
        rcases hp with rfl | rfl | rfl | rfl | rfl | rfl | rfl | rfl
        · exact ⟨ft.1, ft.2, fa⟩
        · exact ⟨by simp, I _ _ (by decide) (by decide), fd⟩
        · exact ⟨by simp, I _ _ (by decide) (by decide), fm⟩
        · exact ⟨by simp, I _ _ (by decide) (by decide), fu⟩
        · exact ⟨by simp, I _ _ (by decide) (by decide), fv⟩
        · exact ⟨by simp, I _ _ (by decide) (by decide), free_plain (number_no _ _ (by decide) (by decide))⟩
        · exact ⟨by simp, I _ _ (by decide) (by decide), free_plain (number_no _ _ (by decide) (by decide))⟩
        · exact ⟨by simp, I _ _ (by decide) (by decide), free_plain (seconds_no _ _ (by decide) (by decide))⟩)
      (by simp) (fun _ _ _ => rfl)
    refine ⟨numberText st ++ b!" " ++ numberText len ++ b!" " ++ secondsText ms, ?_, ⟨_, _, _, number_text st, number_text len, seconds_text ms, rfl⟩⟩
    have hdef : logEntry kind addr date l ms = ([addr, date, l.method, l.uri, l.version, numberText st, numberText len, secondsText ms] : List Bytes).foldl qarg (logFormat kind) := by
      unfold logEntry
      rw [qtext_eq h0.1, qtext_eq h0.2.1, qtext_eq h0.2.2, ho]
      simp only [List.foldl_cons, List.foldl_nil, Option.getD_some]
    have hfmt : logFormat kind = [] ++ template 1 [(tagOf kind, addr), (b!" - - [", date), (b!"] \"", l.method), (b!" ", l.uri), (b!" ", l.version), (b!"\" ", numberText st), (b!" ", numberText len), (b!" ", secondsText ms)] [] := by
      cases kind
      · rfl
      · exact absurd rfl hkb
      · rfl
      · rfl
    rw [hdef, hfmt]
    refine Eq.trans this ?_
    simp [filled]

/-- C70 is false of the code: a `%` in the uri that stands before a small number is taken for a place marker, and the parts of the entry are shifted into each other. -/
theorem C70_marker_violation :
    logEntry .plain b!"10.0.0.1" b!"01/Jan/2012 00:00:00" ⟨b!"GET", b!"/a%2Fb", b!"HTTP/1.1", some (200, 5)⟩ 7 = b!"10.0.0.1 - - [01/Jan/2012 00:00:00] \"GET /aHTTP/1.1Fb 200\" 5 0.007 %8" ∧
    logEntry .plain b!"10.0.0.1" b!"01/Jan/2012 00:00:00" ⟨b!"GET", b!"/x?y=%6a", b!"HTTP/1.1", some (200, 5)⟩ 7 = b!"10.0.0.1 - - [01/Jan/2012 00:00:00] \"GET /x?y=200a HTTP/1.1\" 200 5 0.007" := by
  decide +kernel

/-! ## The values -/

theorem status_write (c : Conn) (e : Ev) : (c.write e).status = c.status := by unfold Conn.write; split <;> rfl
theorem status_readView (c : Conn) : c.readView.status = c.status := by unfold Conn.readView; split <;> rfl

theorem exec_status (k : Nat) (i : Instr) (c : Conn) (hi : ∀ st hs, i ≠ .writeHeaders st hs) : (exec k i c).1.status = c.status := by
  cases i <;> simp only [exec]
  case writeHeaders st hs => exact absurd rfl (hi st hs)
  case processInput => unfold Conn.processInput; dsimp only; repeat' split
                       all_goals rfl
  case recvContent =>
    unfold Conn.recvContent
    dsimp only
    repeat' split
    all_goals first | rfl | (simp only [status_write]; rfl)
  case sendHeaders =>
    unfold Conn.sendHeaders
    dsimp only
    repeat' split
    all_goals rfl
  case sendContent =>
    unfold Conn.sendContent
    dsimp only
    repeat' split
    all_goals first | rfl | (simp only [status_readView])
  case sendContentRest => unfold Conn.sendContentRest; dsimp only; split <;> rfl
  case completed => unfold Conn.complete; split <;> rfl
  case completedRest => unfold Conn.completedRest; dsimp only; split <;> rfl
  case completedRest2 => unfold Conn.completedRest2 Conn.toReceivingHeaders; dsimp only; split <;> rfl
  case flush => unfold Conn.flush; repeat' split
                all_goals rfl
  case drain => unfold Conn.drain; split <;> rfl
  case drainRest => unfold Conn.drainRest; repeat' split
                    all_goals rfl
  case flushing => unfold Conn.toFlushing; split <;> rfl
  case flushingRest => unfold Conn.flushingRest; repeat' split
                       all_goals rfl
  case closed => unfold Conn.toClosed; split <;> rfl
  case closedRest => rfl
  case errorResponse => unfold Conn.errorResponse; split; rfl; exact status_write _ _
  case writeResponse => unfold Conn.writeResponse; split <;> rfl
  case writeResponseRest => unfold Conn.writeResponseRest; dsimp only; repeat' split
                            all_goals first | rfl | exact status_readView _
  case writeContent =>
    unfold Conn.writeContent
    dsimp only
    repeat' split
    all_goals first | rfl | exact status_readView _ | (simp only [status_write]; exact status_readView _)
  case endContent =>
    unfold Conn.endContent
    dsimp only
    repeat' split
    all_goals first | rfl | exact status_write _ _

theorem heads_snoc (log : List Ev) (e : Ev) : heads (log ++ [e]) = heads log ++ (headSent e).toList := by
  unfold heads
  rw [List.filterMap_append]
  cases h : headSent e <;> simp [h]

/-- `responseStatusCode()` is the status of the last head. -/
def StatusOk (c : Conn) : Prop := c.fault = none → ∀ h, (heads c.log).getLast? = some h → c.status = h.status

theorem status_exec (k : Nat) (i : Instr) (c : Conn) (hf : c.fault = none) (h : StatusOk c) : StatusOk (exec k i c).1 := by
  intro hf' hd hh
  by_cases hi : ∃ st hs, i = .writeHeaders st hs
  · obtain ⟨st, hs, rfl⟩ := hi
    revert hf' hh
    simp only [exec]
    unfold Conn.writeHeaders
    split
    · intro _ hh; exact h hf hd hh
    · dsimp only
      split
      · intro hf'; cases hf'
      · rename_i h' he
        dsimp only
        unfold Conn.write
        dsimp only
        split
        · intro hf'; cases hf'
        · intro _ hh
          dsimp only at hh ⊢
          rw [heads_snoc, log_readView] at hh
          simp [headSent] at hh
          subst hh
          obtain ⟨cl, -, e2⟩ := Option.map_eq_some_iff.1 he
          rw [← e2]
  · have hs := exec_status k i c fun st hs e => hi ⟨st, hs, e⟩
    rw [hs]
    refine h hf hd ?_
    rcases exec_log k i c with e | ⟨ev, e, h2⟩
    · rw [e] at hh; exact hh
    · rw [e, heads_snoc] at hh
      cases ev with
      | head h' => obtain ⟨st, hs, e', -⟩ := h2; exact absurd ⟨st, hs, e'⟩ hi
      | _ => simpa [headSent] using hh

theorem status_same {c c' : Conn} (h : StatusOk c) (h1 : c'.fault = c.fault) (h2 : c'.status = c.status) (h3 : heads c'.log = heads c.log) : StatusOk c' := by
  intro hf hd hh
  rw [h2]
  rw [h3] at hh
  exact h (h1 ▸ hf) hd hh

theorem status_reach {allowed : Conf → Label → Prop} {s : Conf} (h : Reach allowed s) : StatusOk s.c := by
  induction h with
  | start => intro _ h hh; cases hh
  | step s s' l _ _ hs ih =>
    unfold Conf.step at hs
    split at hs
    · cases hs
    · rename_i hf
      have hf : s.c.fault = none := by simpa using hf
      cases l with
      | tau k =>
        dsimp only at hs
        split at hs
        · cases hs
        · cases hs
        · simp only [Option.some.injEq] at hs; subst hs
          exact status_exec k _ s.c hf ih
      | call a =>
        dsimp only at hs
        split at hs
        · simp only [Option.some.injEq] at hs; subst hs; exact ih
        · cases hs
      | ret =>
        dsimp only at hs
        split at hs
        · simp only [Option.some.injEq] at hs; subst hs; exact ih
        · cases hs
      | recv bs =>
        dsimp only at hs
        split at hs
        · split at hs
          · simp only [Option.some.injEq] at hs; subst hs
            refine status_same ih rfl rfl ?_
            show heads (s.c.log ++ [.recv bs]) = _
            rw [heads_snoc]; simp [headSent]
          · cases hs
        · cases hs
      | bytesWritten k =>
        dsimp only at hs
        split at hs
        · split at hs
          · simp only [Option.some.injEq] at hs; subst hs
            exact status_same ih rfl rfl rfl
          · cases hs
        · cases hs
      | init =>
        dsimp only at hs
        split at hs
        · simp only [Option.some.injEq] at hs
          subst hs
          have e1 : s.c.initialize.log = s.c.log ++ [.init] := by
            unfold Conn.initialize Conn.toReceivingHeaders Conn.emit; dsimp only; split <;> rfl
          refine status_same ih ?_ ?_ ?_
          · unfold Conn.initialize Conn.toReceivingHeaders Conn.emit; dsimp only; split <;> rfl
          · unfold Conn.initialize Conn.toReceivingHeaders Conn.emit; dsimp only; split <;> rfl
          · show heads s.c.initialize.log = _
            rw [e1, heads_snoc]; simp [headSent]
        · cases hs
      | readParams =>
        dsimp only at hs
        split at hs
        · simp only [Option.some.injEq] at hs; subst hs
          show StatusOk s.c.requestParams
          unfold Conn.requestParams
          split
          · exact status_same ih rfl rfl rfl
          · exact ih
        · cases hs
      | setParam n v =>
        dsimp only at hs
        split at hs
        · simp only [Option.some.injEq] at hs; subst hs
          show StatusOk (s.c.setRequestParam n v)
          unfold Conn.setRequestParam Conn.requestParams
          dsimp only
          split
          · exact status_same ih rfl rfl rfl
          · exact status_same ih rfl rfl rfl
        · cases hs
      | readDecoded d =>
        dsimp only at hs
        split at hs
        · simp only [Option.some.injEq] at hs; subst hs
          show StatusOk (s.c.readDecoded d)
          unfold Conn.readDecoded
          cases d <;> dsimp only <;> split <;> first | exact status_same ih rfl rfl rfl | exact ih
        · cases hs

/-- The head of the response that is being sent is the last one. -/
theorem head_last {lo : Bool} {log : List Ev} {ph : Phase} (hr : Runs lo log ph) : ∀ r h, ((∃ n, ph = .sending r h n) ∨ ph = .ended r h) → (heads log).getLast? = some h := by
  induction hr with
  | start => rintro r h (⟨n, e⟩ | e) <;> cases e
  | step log p p' e hr hn ih =>
    intro r h hp
    rw [heads_snoc]
    cases hn with
    | init p hp' => rcases hp with ⟨n, e⟩ | e <;> cases e
    | recv p bs => simpa [headSent] using ih r h hp
    | interim => rcases hp with ⟨n, e⟩ | e <;> cases e
    | ready i r' _ => rcases hp with ⟨n, e⟩ | e <;> cases e
    | error code => rcases hp with ⟨n, e⟩ | e <;> cases e
    | head r' h' _ =>
      have : h = h' := by split at hp <;> rcases hp with ⟨n, e⟩ | e <;> cases e <;> rfl
      subst this
      simp [headSent]
    | body r' h' n bs _ _ _ _ _ =>
      have : h = h' ∧ r = r' := by split at hp <;> rcases hp with ⟨n, e⟩ | e <;> cases e <;> exact ⟨rfl, rfl⟩
      obtain ⟨rfl, rfl⟩ := this
      simpa [headSent] using ih _ _ (.inl ⟨_, rfl⟩)
    | chunk r' h' n bs _ _ _ _ =>
      have : h = h' ∧ r = r' := by rcases hp with ⟨n, e⟩ | e <;> cases e; exact ⟨rfl, rfl⟩
      obtain ⟨rfl, rfl⟩ := this
      simpa [headSent] using ih _ _ (.inl ⟨_, rfl⟩)
    | lastChunk r' h' n _ _ =>
      have : h = h' ∧ r = r' := by rcases hp with ⟨n, e⟩ | e <;> cases e; exact ⟨rfl, rfl⟩
      obtain ⟨rfl, rfl⟩ := this
      simpa [headSent] using ih _ _ (.inl ⟨_, rfl⟩)
    | completed r' h' => unfold Phase.after at hp; split at hp <;> rcases hp with ⟨n, e⟩ | e <;> cases e
    | completedOpen r' h' n _ _ _ => unfold Phase.after at hp; split at hp <;> rcases hp with ⟨n, e⟩ | e <;> cases e
    | forced p u _ _ => rcases hp with ⟨n, e⟩ | e <;> cases e
    | drained => rcases hp with ⟨n, e⟩ | e <;> cases e
    | again _ => rcases hp with ⟨n, e⟩ | e <;> cases e

/-- **C70**, the values: in the step in which `requestCompleted` is emitted the accessors show the request handed out last, and the status and the length of the response head sent last;
this is read by the slot of the log. -/
theorem C70_values (s s' : Conf) (l : Label) (hr : Reach Proper s) (hs : s.step l = some s') (he : s'.c.log = s.c.log ++ [.completed]) :
    ∃ r h, (readys s'.c.log).getLast? = some r ∧ (heads s'.c.log).getLast? = some h ∧ s'.c.logLine = ⟨r.method, r.uri, r.version, some (h.status, h.len)⟩ ∧ s'.c.viewsValid = true := by
  have hst := status_reach hr
  have hl := linv_reach hr
  have ne : ∀ {e : Ev}, s.c.log = s.c.log ++ [e] → False := fun h => by simpa using congrArg List.length h
  have ne2 : ∀ {e : Ev}, s.c.log ++ [e] = s.c.log ++ [.completed] → e = .completed := fun h => by simpa using h
  unfold Conf.step at hs
  split at hs
  · cases hs
  · rename_i hf
    have hf : s.c.fault = none := by simpa using hf
    cases l with
    | tau k =>
      dsimp only at hs
      split at hs
      · cases hs
      · cases hs
      · rename_i i rest hne hstk
        simp only [Option.some.injEq] at hs; subst hs
        dsimp only at he ⊢
        rcases exec_log k i s.c with e | ⟨ev, e, h2⟩
        · rw [e] at he; exact (ne he).elim
        · rw [e] at he
          have := ne2 he
          subst this
          obtain ⟨rfl, hnc⟩ := h2
          have hcore : Core true s.c s.stack := by
            rcases hl with h | h | h
            · exact h
            · rw [hstk] at h
              cases h with
              | z1 _ n x _ _ _ hb _ _ _ => have := hb .completed (by simp); cases this
              | z2 _ _ _ _ _ hb _ => have := hb .completed (by simp); cases this
            · rw [Dead, hf] at h; cases h.1
          obtain ⟨ph, hruns, hd⟩ := hcore.data
          rw [hstk] at hd
          obtain ⟨-, -, hv, h, n, hresp, hph⟩ := hd
          have hreq : (readys s.c.log).getLast? = some s.c.req := req_last hruns _ (by rcases hph with e | ⟨e, -⟩ <;> rw [e] <;> rfl)
          have hhd : (heads s.c.log).getLast? = some h := head_last hruns s.c.req h (by rcases hph with e | ⟨e, -⟩; exact .inr e; exact .inl ⟨n, e⟩)
          have hc : (exec k .completed s.c).1 = { s.c with st := .completed }.emit .completed := by
            show (s.c.complete).1 = _
            unfold Conn.complete
            rw [if_neg hnc]
          refine ⟨s.c.req, h, ?_, ?_, ?_, ?_⟩
          · rw [e, readys_snoc]; simpa [Ev.request] using hreq
          · rw [e, heads_snoc]; simpa [headSent] using hhd
          · rw [hc]
            show (⟨s.c.req.method, s.c.req.uri, s.c.req.version, some (s.c.status, s.c.respLen)⟩ : LogLine) = _
            rw [hst hf h hhd, hresp.len]
          · rw [hc]; exact hv
    | call a =>
      dsimp only at hs
      split at hs
      · simp only [Option.some.injEq] at hs; subst hs; exact (ne he).elim
      · cases hs
    | ret =>
      dsimp only at hs
      split at hs
      · simp only [Option.some.injEq] at hs; subst hs; exact (ne he).elim
      · cases hs
    | recv bs =>
      dsimp only at hs
      split at hs
      · split at hs
        · simp only [Option.some.injEq] at hs; subst hs; cases ne2 he
        · cases hs
      · cases hs
    | bytesWritten k =>
      dsimp only at hs
      split at hs
      · split at hs
        · simp only [Option.some.injEq] at hs; subst hs; exact (ne he).elim
        · cases hs
      · cases hs
    | init =>
      dsimp only at hs
      split at hs
      · simp only [Option.some.injEq] at hs
        subst hs
        have e1 : s.c.initialize.log = s.c.log ++ [.init] := by
          unfold Conn.initialize Conn.toReceivingHeaders Conn.emit; dsimp only; split <;> rfl
        rw [e1] at he
        cases ne2 he
      · cases hs
    | readParams =>
      dsimp only at hs
      split at hs
      · simp only [Option.some.injEq] at hs; subst hs
        have : s.c.requestParams.log = s.c.log := by unfold Conn.requestParams; split <;> rfl
        rw [this] at he; exact (ne he).elim
      · cases hs
    | setParam n v =>
      dsimp only at hs
      split at hs
      · simp only [Option.some.injEq] at hs; subst hs
        have : (s.c.setRequestParam n v).log = s.c.log := by unfold Conn.setRequestParam Conn.requestParams; dsimp only; split <;> rfl
        rw [this] at he; exact (ne he).elim
      · cases hs
    | readDecoded d =>
      dsimp only at hs
      split at hs
      · simp only [Option.some.injEq] at hs; subst hs
        have : (s.c.readDecoded d).log = s.c.log := by unfold Conn.readDecoded; cases d <;> dsimp only <;> split <;> rfl
        rw [this] at he; exact (ne he).elim
      · cases hs

/-! ## The whole entry -/

theorem step_grows_one {s s' : Conf} {l : Label} (hs : s.step l = some s') : s'.c.log = s.c.log ∨ ∃ e, s'.c.log = s.c.log ++ [e] := by
  unfold Conf.step at hs
  split at hs
  · cases hs
  · cases l with
    | tau k =>
      dsimp only at hs
      split at hs
      · cases hs
      · cases hs
      · rename_i i rest hne hstk
        simp only [Option.some.injEq] at hs; subst hs
        rcases exec_log k i s.c with e | ⟨ev, e, -⟩
        · exact .inl e
        · exact .inr ⟨ev, e⟩
    | call a =>
      dsimp only at hs
      split at hs
      · simp only [Option.some.injEq] at hs; subst hs; exact .inl rfl
      · cases hs
    | ret =>
      dsimp only at hs
      split at hs
      · simp only [Option.some.injEq] at hs; subst hs; exact .inl rfl
      · cases hs
    | recv bs =>
      dsimp only at hs
      split at hs
      · split at hs
        · simp only [Option.some.injEq] at hs; subst hs; exact .inr ⟨_, rfl⟩
        · cases hs
      · cases hs
    | bytesWritten k =>
      dsimp only at hs
      split at hs
      · split at hs
        · simp only [Option.some.injEq] at hs; subst hs; exact .inl rfl
        · cases hs
      · cases hs
    | init =>
      dsimp only at hs
      split at hs
      · simp only [Option.some.injEq] at hs
        subst hs
        have e1 : s.c.initialize.log = s.c.log ++ [.init] := by
          unfold Conn.initialize Conn.toReceivingHeaders Conn.emit; dsimp only; split <;> rfl
        exact .inr ⟨_, e1⟩
      · cases hs
    | readParams =>
      dsimp only at hs
      split at hs
      · simp only [Option.some.injEq] at hs; subst hs
        exact .inl (by unfold Conn.requestParams; split <;> rfl)
      · cases hs
    | setParam n v =>
      dsimp only at hs
      split at hs
      · simp only [Option.some.injEq] at hs; subst hs
        exact .inl (by unfold Conn.setRequestParam Conn.requestParams; dsimp only; split <;> rfl)
      · cases hs
    | readDecoded d =>
      dsimp only at hs
      split at hs
      · simp only [Option.some.injEq] at hs; subst hs
        exact .inl (by unfold Conn.readDecoded; cases d <;> dsimp only <;> split <;> rfl)
      · cases hs

/-- Every request handed out is one a client has sent. -/
theorem ready_wf {s : Conf} (hr : Reach Proper s) : ∀ r ∈ readys s.c.log, ∃ hd content, hd.Wf ∧ r = ReqHead.shown hd content := by
  induction hr with
  | start => intro r h; cases h
  | step s s' l h1 h2 hs ih =>
    intro r hm
    rcases step_grows_one hs with e | ⟨e, he⟩
    · rw [e] at hm; exact ih r hm
    · rw [he, readys_snoc] at hm
      rcases List.mem_append.1 hm with hm | hm
      · exact ih r hm
      · cases e with
        | ready r' =>
          have : r = r' := by simpa [Ev.request] using hm
          subst this
          obtain ⟨hd, content, h3, h4⟩ := last_sent (Reach.step s s' l h1 h2 hs) (r := r) ⟨s.c.log, [], he, by simp⟩
          exact ⟨hd, content, lastSent_wf h3, h4⟩
        | _ => simp [Ev.request] at hm

theorem esc_visible {P : Byte → Prop} (hP : ∀ b, P b → 32 < b) {t : Bytes} (h : EscText P t) : ∀ b ∈ t, 32 < b := by
  have hx : ∀ x : Byte, HexDigit x → 32 < x := by
    intro x hx
    unfold HexDigit oneOf at hx
    revert x
    decide
  induction h with
  | nil => intro b hb; cases hb
  | plain b t hb _ ih =>
    intro c hc
    rcases List.mem_cons.1 hc with rfl | hc
    · exact hP _ hb
    · exact ih c hc
  | esc x y t h1 h2 _ ih =>
    intro c hc
    simp only [List.mem_cons] at hc
    rcases hc with rfl | rfl | rfl | hc
    · decide
    · exact hx _ h1
    · exact hx _ h2
    · exact ih c hc
  | uesc x y t h1 h2 _ ih =>
    intro c hc
    simp only [List.mem_cons] at hc
    rcases hc with rfl | rfl | rfl | rfl | hc
    · decide
    · decide
    · exact hx _ h1
    · exact hx _ h2
    · exact ih c hc

/-- There are neither blanks nor control characters in a target. -/
theorem target_visible {t : Target} (h : t.Wf) : ∀ b ∈ t.uri, 32 < b := by
  have hs : ∀ b : Byte, SchemeChar b → 32 < b := by unfold SchemeChar oneOf; decide
  cases t with
  | star => intro b hb; revert b; decide
  | absolute scheme rest =>
    obtain ⟨h1, h2⟩ := h
    intro b hb
    simp only [Target.uri, List.mem_append, List.mem_cons, List.not_mem_nil, or_false] at hb
    rcases hb with (hb | rfl) | hb
    · exact hs b (h1 b hb)
    · decide
    · exact esc_visible (fun b h => h.1) h2 b hb
  | origin path q =>
    obtain ⟨⟨p, rfl, h1⟩, h2⟩ := h
    have h3 : ∀ b ∈ (47 :: p : Bytes), 32 < b := by
      intro b hb
      rcases List.mem_cons.1 hb with rfl | hb
      · decide
      · exact esc_visible (fun b h => h.1.1) h1 b hb
    cases q with
    | none => exact h3
    | some q =>
      intro b hb
      simp only [Target.uri, List.mem_append, List.mem_cons, List.not_mem_nil, or_false] at hb
      rcases hb with (hb | rfl) | hb
      · exact h3 b (by simpa using hb)
      · decide
      · exact esc_visible (fun b h => h.1) (h2 q rfl) b hb

theorem method_plain : ∀ b : Byte, MethodChar b → 32 < b ∧ b ≠ 37 := by unfold MethodChar oneOf; decide
theorem digit_plain : ∀ b : Byte, Digit b → 32 < b ∧ b ≠ 37 := by unfold Digit oneOf; decide

theorem version_plain {hd : ReqHead} (h : hd.Wf) : ∀ b ∈ hd.version, 32 < b ∧ b ≠ 37 := by
  intro b hb
  simp only [ReqHead.version, List.mem_append] at hb
  rcases hb with ((hb | hb) | hb) | hb
  · revert b; decide
  · exact digit_plain b (h.major.2 b hb)
  · revert b; decide
  · exact digit_plain b (h.minor.2 b hb)

theorem unmarked_plain {x : Bytes} (h : 37 ∉ x) : Unmarked x := by
  rintro pre suf n rfl
  exact absurd (by simp) h

theorem qtext_idem (s : Bytes) : qtext (qtext s) = qtext s := by
  refine qtext_eq ?_
  intro h
  have := List.all_takeWhile (l := s) (p := (· ≠ 0))
  rw [List.all_eq_true] at this
  have := this 0 h
  simp at this

theorem qtext_nul {s : Bytes} (h : 0 ∉ s) : qtext (s ++ [0]) = s := by
  unfold qtext
  rw [List.takeWhile_append_of_pos (by intro b hb; simpa using fun e : b = 0 => h (e ▸ hb))]
  simp

/-- **C70**: the entry of a request names it as it was sent (but for an empty query, `/a?`, which is left out with its question mark), and the status and length of its response, if the address, the
date and the request target have no place markers up to `%8`. What is missing: `C70_marker_violation`. -/
theorem C70_entry_partial (s s' : Conf) (l : Label) (hr : Reach Proper s) (hp : Proper s l) (hs : s.step l = some s') (he : s'.c.log = s.c.log ++ [.completed]) :
    ∃ (hd : ReqHead) (content : Bytes) (h : RespHead) (target : Bytes), hd.Wf ∧ (readys s'.c.log).getLast? = some (hd.shown content) ∧ (heads s'.c.log).getLast? = some h ∧
      s'.c.viewsValid = true ∧ (target = hd.target.uri ∨ target ++ b!"?" = hd.target.uri) ∧
      ∀ kind addr date ms, (kind = .plain ∨ kind = .end_) → Unmarked addr → Unmarked date → Unmarked target →
        Entry kind addr date hd.method target hd.version (some (h.status, h.len)) ms (logEntry kind addr date s'.c.logLine ms) := by
  obtain ⟨r, h, h1, h2, h3, h4⟩ := C70_values s s' l hr hs he
  obtain ⟨hd, content, hwf, hv⟩ := ready_wf (Reach.step s s' l hr hp hs) r (List.mem_of_getLast? h1)
  have hvis := target_visible hwf.target
  have hm : ∀ b ∈ hd.method, 32 < b ∧ b ≠ 37 := fun b hb => method_plain b (hwf.method_chars b hb)
  have hver := version_plain hwf
  have no0 : ∀ {x : Bytes}, (∀ b ∈ x, 32 < b) → 0 ∉ x := fun h hb => absurd (h 0 hb) (by decide)
  have key : ∃ target, qtext r.uri = target ∧ (target = hd.target.uri ∨ target ++ b!"?" = hd.target.uri) ∧ 0 ∉ target ∧ r.method = hd.method ∧ r.version = hd.version := by
    subst hv
    unfold ReqHead.shown
    split
    · rename_i path ht
      have hpath : 0 ∉ path := fun hb => no0 hvis (by rw [ht]; simp [Target.uri, hb])
      exact ⟨path, qtext_nul hpath, .inr (by rw [ht]; simp [Target.uri]), hpath, rfl, rfl⟩
    · exact ⟨hd.target.uri, qtext_eq (no0 hvis), .inl rfl, no0 hvis, rfl, rfl⟩
  obtain ⟨target, k1, k2, k3, k4, k5⟩ := key
  refine ⟨hd, content, h, target, hwf, hv ▸ h1, h2, h4, k2, ?_⟩
  intro kind addr date ms hk ha hdt ht
  have hsame : logEntry kind addr date s'.c.logLine ms = logEntry kind addr date ⟨hd.method, target, hd.version, some (h.status, h.len)⟩ ms := by
    rw [h3, k4, k5]
    unfold logEntry
    dsimp only
    rw [k1, qtext_eq k3]
  rw [hsame]
  refine C70_layout_partial kind addr date ⟨hd.method, target, hd.version, some (h.status, h.len)⟩ ms ?_ ⟨no0 fun b hb => (hm b hb).1, k3, no0 fun b hb => (hver b hb).1⟩ ha hdt
    (unmarked_plain fun hb => (hm _ hb).2 rfl) ht (unmarked_plain fun hb => (hver _ hb).2 rfl)
  rcases hk with rfl | rfl <;> simp

/-! ## One line -/

theorem replace_mem (b : Byte) (n : Nat) (a : Bytes) : ∀ (s : Bytes) (k : Nat), b ∈ replaceMarks n a k s → b ∈ s ∨ b ∈ a
  | [], k, h => by cases k <;> cases h
  | c :: s, k + 1, h => by
    rcases replace_mem b n a s k h with h | h
    · exact .inl (by simp [h])
    · exact .inr h
  | c :: s, 0, h => by
    unfold replaceMarks at h
    split at h
    · rename_i m _
      split at h
      · rcases List.mem_append.1 h with h | h
        · exact .inr h
        · rcases replace_mem b n a s m.2 h with h | h
          · exact .inl (by simp [h])
          · exact .inr h
      · rcases List.mem_cons.1 h with h | h
        · exact .inl (by simp [h])
        · rcases replace_mem b n a s 0 h with h | h
          · exact .inl (by simp [h])
          · exact .inr h
    · rcases List.mem_cons.1 h with h | h
      · exact .inl (by simp [h])
      · rcases replace_mem b n a s 0 h with h | h
        · exact .inl (by simp [h])
        · exact .inr h

theorem qarg_mem {b : Byte} {s a : Bytes} (hs : b ∉ s) (ha : b ∉ a) : b ∉ qarg s a := by
  unfold qarg
  split
  · exact hs
  · intro h
    rcases replace_mem b _ a s 0 h with h | h
    · exact hs h
    · exact ha h

theorem qtext_mem {b : Byte} {s : Bytes} (h : b ∉ s) : b ∉ qtext s := fun hb => h ((List.takeWhile_sublist _).subset hb)

theorem logEntry_mem {kind : LogKind} {addr date : Bytes} {l : LogLine} {ms : Nat} {b : Byte} (hf : b ∉ logFormat kind) (hb : ¬ (48 ≤ b ∧ b ≤ 57) ∧ b ≠ 45 ∧ b ≠ 46)
    (ha : b ∉ addr) (hd : b ∉ date) (hm : b ∉ l.method) (hu : b ∉ l.uri) (hv : b ∉ l.version) : b ∉ logEntry kind addr date l ms := by
  have h5 := qarg_mem (qarg_mem (qarg_mem (qarg_mem (qarg_mem hf ha) hd) (qtext_mem hm)) (qtext_mem hu)) (qtext_mem hv)
  unfold logEntry
  dsimp only
  split
  · exact h5
  · exact qarg_mem (qarg_mem (qarg_mem h5 (number_no _ _ hb.1 hb.2.1)) (number_no _ _ hb.1 hb.2.1)) (seconds_no _ _ hb.1 hb.2.2)

/-- **C70**, one line: whatever a client sends as its request, an entry about it is a single line: the line feed `log()` adds is the only one. -/
theorem C70_one_line (s : Conf) (hr : Reach Proper s) (r : ReqView) (hm : r ∈ readys s.c.log) (outcome : Option (Int × Int)) (kind : LogKind) (addr date : Bytes) (ms : Nat)
    (ha : 10 ∉ addr) (hd : 10 ∉ date) : ∃ line, logWrites kind addr date ⟨r.method, r.uri, r.version, outcome⟩ ms = line ++ b!"\n" ∧ 10 ∉ line := by
  refine ⟨_, rfl, ?_⟩
  obtain ⟨h, content, hwf, rfl⟩ := ready_wf hr r hm
  have hvis := target_visible hwf.target
  have no : ∀ {x : Bytes}, (∀ b ∈ x, 32 < b) → 10 ∉ x := fun h hb => absurd (h 10 hb) (by decide)
  refine logEntry_mem (by cases kind <;> decide) (by decide) ha hd ?_ ?_ ?_
  · show 10 ∉ (h.shown content).method
    rw [(shown_parts h content).1]
    exact no fun b hb => (method_plain b (hwf.method_chars b hb)).1
  · show 10 ∉ (h.shown content).uri
    unfold ReqHead.shown
    split
    · rename_i path ht
      intro hb
      rcases List.mem_append.1 hb with hb | hb
      · exact no hvis (by rw [ht]; simp [Target.uri, hb])
      · simp at hb
    · exact no hvis
  · show 10 ∉ (h.shown content).version
    have : (h.shown content).version = h.version := by unfold ReqHead.shown; split <;> rfl
    rw [this]
    exact no fun b hb => (version_plain hwf b hb).1

/-! ## `[CLOSE]` -/

/-- C70 is false of `[CLOSE]` entries: when a connection is closed after a response has been completed, the request the entry names is read out of a buffer that has been given back; here a client
asks once, and hangs up when it has its answer. -/
theorem C70_stale_close : ∃ s, Reach Proper s ∧ s.inEnv = true ∧ s.c.fault = none ∧ (∃ r, (readys s.c.log).getLast? = some r ∧ r.uri = b!"/a") ∧ s.c.log.getLast? = some (.closed true 0) ∧
    s.c.viewsValid = false := by
  obtain ⟨t, h1, h2⟩ := exists_of_endsIn (allowed := Proper)
    (ls := [.init, .recv b!"GET /a HTTP/1.1\r\n\r\n", .call .processInput] ++ taus 3 ++ [.call (.writeResponse 200 [] b!"ok")] ++ taus 7 ++ [.ret] ++ taus 1 ++ [.tau 1000, .ret] ++ taus 2 ++
      [.ret, .call .close] ++ taus 1)
    (p := fun s => s.inEnv && s.c.fault == none && ((readys s.c.log).getLast?.map (·.uri)) == some b!"/a" && s.c.log.getLast? == some (.closed true 0) && !s.c.viewsValid) (by decide +kernel)
  simp only [Bool.and_eq_true, beq_iff_eq, Bool.not_eq_true'] at h2
  obtain ⟨⟨⟨⟨h3, h4⟩, h5⟩, h6⟩, h7⟩ := h2
  obtain ⟨r, h8, h9⟩ := Option.map_eq_some_iff.1 h5
  exact ⟨t, h1, h3, h4, ⟨r, h8, h9⟩, h6, h7⟩

/-! ## The hypotheses are met -/

theorem read_digit (d : Byte) (n : Nat) (h : readNat 10 [d] = some n) : isDigitValue d = true ∧ n = d.toNat - 48 := by
  revert h
  revert d
  have : ∀ d : Byte, isDigitValue d = false → readNat 10 [d] = none := by apply byte_forall; decide +kernel
  intro d h
  cases hd : isDigitValue d with
  | false => rw [this d hd] at h; cases h
  | true =>
    obtain ⟨h1, h2⟩ := digit_read d hd
    simp [readNat, h1, h2] at h
    exact ⟨rfl, h.symm⟩

theorem read_digits (d e : Byte) (n : Nat) (h : readNat 10 [d, e] = some n) : isDigitValue d = true ∧ isDigitValue e = true ∧ n = 10 * (d.toNat - 48) + (e.toNat - 48) := by
  have hv : ∀ d : Byte, isDigitValue d = false → (hexVal d).bind (fun x => if x < 10 then some x else none) = none := by apply byte_forall; decide +kernel
  cases hd : isDigitValue d with
  | false =>
    exfalso
    have h1 := hv d hd
    cases hx : hexVal d with
    | none => simp [readNat, hx] at h
    | some x =>
      rw [hx] at h1
      have : ¬ x < 10 := by intro k; simp [k] at h1
      simp [readNat, hx, this] at h
  | true =>
    obtain ⟨h1, h2⟩ := digit_read d hd
    cases he : isDigitValue e with
    | false =>
      exfalso
      have h3 := hv e he
      cases hx : hexVal e with
      | none => simp [readNat, hx, h1, h2] at h
      | some x =>
        rw [hx] at h3
        have : ¬ x < 10 := by intro k; simp [k] at h3
        simp [readNat, hx, this, h1, h2] at h
    | true =>
      obtain ⟨h3, h4⟩ := digit_read e he
      simp [readNat, h1, h2, h3, h4] at h
      exact ⟨rfl, rfl, h.symm⟩

theorem digitsMarker_of {d rest : Bytes} {n : Nat} (h : readNat 10 d = some n) (hl : d.length = 2 ∨ (d.length = 1 ∧ ∀ e, rest.head? = some e → ¬ (48 ≤ e ∧ e ≤ 57))) :
    ∃ k, digitsMarker (d ++ rest) = some (n, k) := by
  rcases hl with hl | ⟨hl, hr⟩
  · match d, hl with
    | [a, b], _ =>
      obtain ⟨h1, h2, rfl⟩ := read_digits a b n h
      exact ⟨2, by simp [digitsMarker, h1, h2]⟩
  · match d, hl with
    | [a], _ =>
      obtain ⟨h1, rfl⟩ := read_digit a n h
      cases rest with
      | nil => exact ⟨1, by simp [digitsMarker, h1]⟩
      | cons e rest =>
        have : isDigitValue e = false := by
          cases k : isDigitValue e with
          | false => rfl
          | true => exact absurd ((isDigitValue_iff e).1 k) (hr e rfl)
        exact ⟨1, by simp [digitsMarker, h1, this]⟩

theorem marker_of {s : Bytes} {n : Nat} (h : MarkerAt s n) : ∃ k, marker s = some (n, k) := by
  obtain ⟨l, d, rest, hl, rfl, hn, hd⟩ := h
  obtain ⟨k, hk⟩ := digitsMarker_of hn hd
  rcases hl with rfl | rfl
  · refine ⟨k, ?_⟩
    cases d with
    | nil => simp [readNat] at hn
    | cons a d =>
      have h76 : a ≠ 76 := by
        rintro rfl
        rcases hd with hd | ⟨hd, -⟩
        · match d, hd with
          | [b], _ => exact absurd (read_digits 76 b n hn).1 (by decide)
        · match d, hd with
          | [], _ => exact absurd (read_digit 76 n hn).1 (by decide)
      simp only [List.nil_append, List.cons_append] at hk ⊢
      rw [marker_not76 h76]; exact hk
  · refine ⟨k + 1, ?_⟩
    show (digitsMarker (d ++ rest)).map _ = _
    rw [hk]; rfl

theorem unmarked_of_free : ∀ {s : Bytes}, Free s → Unmarked s
  | [], _ => by
    intro pre suf n e
    exact absurd (congrArg List.length e) (by simp)
  | c :: s, h => by
    have hs : Unmarked s := unmarked_of_free fun n hn => h n (by simp only [marks]; split <;> simp [hn])
    intro pre suf n e hm
    cases pre with
    | nil =>
      simp only [List.nil_append, List.cons.injEq] at e
      obtain ⟨rfl, rfl⟩ := e
      obtain ⟨k, hk⟩ := marker_of hm
      exact h n (by simp [marks, hk])
    | cons x pre =>
      simp only [List.cons_append, List.cons.injEq] at e
      exact hs pre suf n e.2 hm

/-- Targets that are escaped. -/
example : Unmarked b!"/a%20b?c=%E9%99" ∧ ¬ Unmarked b!"/a%2Fb" := by
  refine ⟨unmarked_of_free (by unfold Free; decide), fun h => ?_⟩
  have := free_of_unmarked h 2 (by decide)
  omega

/-- An entry. -/
example : Entry .plain b!"10.0.0.1" b!"01/Jan/2012 00:00:00" b!"GET" b!"/a%20b" b!"HTTP/1.1" (some (200, -1)) 12345
    b!"10.0.0.1 - - [01/Jan/2012 00:00:00] \"GET /a%20b HTTP/1.1\" 200 -1 12.345" :=
  ⟨_, rfl, b!"200", b!"-1", b!"12.345", ⟨by decide, trivial⟩, ⟨by decide, trivial⟩, ⟨b!"12", 51, 52, 53, rfl, by decide, by decide⟩, rfl⟩

/-- A step in which `requestCompleted` is emitted. -/
example : ∃ s s' l, Reach Proper s ∧ Proper s l ∧ s.step l = some s' ∧ s'.c.log = s.c.log ++ [.completed] ∧ (readys s'.c.log).map (·.uri) = [b!"/a%20b"] := by
  let ls : List Label := [.init, .recv b!"GET /a%20b HTTP/1.1\r\n\r\n", .call .processInput] ++ taus 3 ++ [.call (.writeResponse 200 [] b!"ok")] ++ taus 6
  obtain ⟨t, h1, h2⟩ := exists_of_endsIn (allowed := Proper) (ls := ls)
    (p := fun s => match s.step (.tau 0) with | some s' => s'.c.log == s.c.log ++ [.completed] && (readys s'.c.log).map (·.uri) == [b!"/a%20b"] | none => false) (by decide +kernel)
  split at h2
  · rename_i s' hs
    simp only [Bool.and_eq_true, beq_iff_eq] at h2
    exact ⟨t, s', .tau 0, h1, (by intro e; cases e), hs, h2.1, h2.2⟩
  · cases h2

end Pillow.Props
