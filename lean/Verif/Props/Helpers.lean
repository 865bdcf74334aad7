import Verif.Lemmas.Number
import Verif.Model.ByteArray
import Verif.Spec.Http
set_option linter.unusedSimpArgs false
/-!
# Property theorems C01–C07, C42, C43, C51 (byte helpers, headers, status table, dates, byte builder)
-/
namespace Pillow.Props
open Pillow Spec

/-! ## C03 -/

/-- C03: the comparison holds iff both strings agree after folding `A`–`Z` to `a`–`z` (in particular they have
the same length). -/
theorem C03_equals_iff (a b : Bytes) : asciiEqualsCI a b = true ↔ a.map lower = b.map lower :=
  asciiEqualsCI_iff a b

/-- C03, byte level: only ASCII letters are folded; every other byte (including ≥ 0x80) compares exactly. -/
theorem C03_only_letters (x y : Byte) : asciiEqualsCI [x] [y] = true ↔
    x = y ∨ (97 ≤ x ∧ x ≤ 122 ∧ x.toNat = y.toNat + 32) ∨ (97 ≤ y ∧ y ≤ 122 ∧ y.toNat = x.toNat + 32) := by
  have h1 := x.toNat_lt; have h2 := y.toNat_lt
  simp [C03_equals_iff, lower]
  split <;> split <;> simp [← UInt8.toNat_inj, UInt8.toNat_add, UInt8.le_iff_toNat_le] at * <;> omega

theorem C03_refl (a : Bytes) : asciiEqualsCI a a = true := by simp [C03_equals_iff]
theorem C03_symm (a b : Bytes) : asciiEqualsCI a b = asciiEqualsCI b a := by
  rw [Bool.eq_iff_iff, C03_equals_iff, C03_equals_iff]; exact eq_comm
theorem C03_trans (a b c : Bytes) (h : asciiEqualsCI a b = true) (h' : asciiEqualsCI b c = true) :
    asciiEqualsCI a c = true := by rw [C03_equals_iff] at *; exact h.trans h'
/-- Equal strings have equal length (no prefix matches). -/
theorem C03_length (a b : Bytes) (h : asciiEqualsCI a b = true) : a.length = b.length := by
  rw [C03_equals_iff] at h; simpa using congrArg List.length h

example : asciiEqualsCI b!"Content-LENGTH" b!"content-length" = true := by decide
example : asciiEqualsCI b!"[" b!"{" = false := by decide
example : asciiEqualsCI [0xC1] [0xE1] = false := by decide

/-! ## C01 -/

/-- `v` is the value of the first header named `name` (ASCII case-insensitively), or empty if there is none. -/
def IsFirstValue (hs : Headers) (name v : Bytes) : Prop :=
  (∃ pre h post, hs = pre ++ h :: post ∧ SameCI h.name name ∧ (∀ g ∈ pre, ¬ SameCI g.name name) ∧ v = h.value)
  ∨ ((∀ h ∈ hs, ¬ SameCI h.name name) ∧ v = [])

theorem C01_getFieldValue (hs : Headers) (name : Bytes) : IsFirstValue hs name (getFieldValue hs name) := by
  induction hs with
  | nil => right; simp [getFieldValue]
  | cons h hs ih =>
    by_cases hc : asciiEqualsCI h.name name = true
    · left; exact ⟨[], h, hs, rfl, (asciiEqualsCI_iff _ _).1 hc, by simp, by simp [getFieldValue, hc]⟩
    · have hn : ¬ SameCI h.name name := fun h' => hc ((asciiEqualsCI_iff _ _).2 h')
      have e : getFieldValue (h :: hs) name = getFieldValue hs name := by simp [getFieldValue, hc]
      rw [e]
      rcases ih with ⟨pre, g, post, rfl, h1, h2, h3⟩ | ⟨h1, h2⟩
      · left; exact ⟨h :: pre, g, post, rfl, h1, by simpa [hn] using h2, h3⟩
      · right; exact ⟨by simpa [hn] using h1, h2⟩

/-- The specification determines the value: two readings of it agree. -/
theorem IsFirstValue_unique (hs : Headers) (name v w : Bytes) (hv : IsFirstValue hs name v)
    (hw : IsFirstValue hs name w) : v = w := by
  induction hs with
  | nil => rcases hv with ⟨p, h, q, h0, _⟩ | ⟨_, rfl⟩ <;> rcases hw with ⟨p', h', q', h0', _⟩ | ⟨_, rfl⟩ <;> simp_all
  | cons g hs ih =>
    have aux : ∀ u, IsFirstValue (g :: hs) name u →
        if SameCI g.name name then u = g.value else IsFirstValue hs name u := by
      intro u hu
      rcases hu with ⟨p, h, q, h0, h1, h2, h3⟩ | ⟨h1, h2⟩
      · cases p with
        | nil => simp at h0; obtain ⟨rfl, rfl⟩ := h0; simp [h1, h3]
        | cons p0 p =>
          simp at h0; obtain ⟨rfl, rfl⟩ := h0
          simp at h2
          rw [if_neg h2.1]
          left; exact ⟨p, h, q, rfl, h1, h2.2, h3⟩
      · simp at h1; rw [if_neg h1.1]; right; exact ⟨h1.2, h2⟩
    have a := aux v hv; have b := aux w hw
    split at a <;> simp_all

/-- C01 for the `LowerCaseToken` overload: for every token without capital letters it gives the same answer. -/
theorem C01_getFieldValueTok (hs : Headers) (tok : Bytes) (ht : ∀ b ∈ tok, ¬ (65 ≤ b ∧ b ≤ 90)) :
    getFieldValueTok hs tok = getFieldValue hs tok := by
  induction hs with
  | nil => rfl
  | cons h hs ih =>
    have : asciiEqualsCILower h.name tok = asciiEqualsCI h.name tok := by
      rw [Bool.eq_iff_iff, asciiEqualsCILower_iff _ _ ht, asciiEqualsCI_iff]
    simp [getFieldValueTok, getFieldValue, this, ih]

example : getFieldValue [⟨b!"Host", b!"a"⟩, ⟨b!"X", b!"1"⟩, ⟨b!"x", b!"2"⟩] b!"x" = b!"1" := by decide
example : ∀ b ∈ b!"content-length", ¬ (65 ≤ b ∧ b ≤ 90) := by decide
example : getFieldValueTok [⟨b!"Content-Length", b!"12"⟩] b!"content-length" = b!"12" := by decide

/-! ## C02 -/

theorem C02_getFieldValues (hs : Headers) (name : Bytes) :
    getFieldValues hs name = (hs.filter (fun h => decide (SameCI h.name name))).map Header.value := by
  have : ∀ acc, getFieldValuesLoop hs name acc
      = acc ++ (hs.filter (fun h => decide (SameCI h.name name))).map Header.value := by
    induction hs with
    | nil => simp [getFieldValuesLoop]
    | cons h hs ih =>
      intro acc
      rw [getFieldValuesLoop, ih]
      by_cases hc : SameCI h.name name
      · simp [(asciiEqualsCI_iff _ _).2 hc, hc]
      · have : asciiEqualsCI h.name name = false := by
          rw [Bool.eq_false_iff]; exact fun h' => hc ((asciiEqualsCI_iff _ _).1 h')
        simp [this, hc]
  simpa [getFieldValues] using this []

theorem C02_testFieldValue (hs : Headers) (name value : Bytes) :
    testFieldValue hs name value = true ↔ ∃ h ∈ hs, SameCI h.name name ∧ SameCI h.value value := by
  induction hs with
  | nil => simp [testFieldValue]
  | cons h hs ih =>
    have hl : ∀ a b : Bytes, SameCI a b → a.length = b.length := by
      intro a b h; simpa using congrArg List.length h
    have hex : (∃ h' ∈ h :: hs, SameCI h'.name name ∧ SameCI h'.value value) ↔
        ((SameCI h.name name ∧ SameCI h.value value) ∨ ∃ h' ∈ hs, SameCI h'.name name ∧ SameCI h'.value value) := by
      simp
    rw [hex]
    simp only [testFieldValue]
    split
    · rename_i hc
      rw [ih]
      constructor
      · exact Or.inr
      · rintro (⟨h1, h2⟩ | h')
        · have := hl _ _ h1; have := hl _ _ h2; simp_all
        · exact h'
    · split
      · rename_i _ hc
        simp only [Bool.and_eq_true, asciiEqualsCI_iff] at hc
        simp [hc]
      · rename_i _ hc
        simp only [Bool.and_eq_true, asciiEqualsCI_iff] at hc
        simp [hc, ih]

example : getFieldValues [⟨b!"A", b!"1"⟩, ⟨b!"b", b!"2"⟩, ⟨b!"a", b!"3"⟩] b!"a" = [b!"1", b!"3"] := by decide
example : testFieldValue [⟨b!"Connection", b!"Close"⟩] b!"connection" b!"close" = true := by decide

/-! ## C04 -/

/-- C04: decoding inverts every percent-encoding. -/
theorem C04_decode_encoded (enc raw : Bytes) (h : PctEncodes enc raw) : percentDecode enc = raw := by
  rw [percentDecode_eq, pctDecodeList_of_encodes h]

/-- C04: a trailing `%`, or `%` with one character, is kept literally. -/
theorem C04_truncated (enc raw tail : Bytes) (h : PctEncodes enc raw)
    (ht : tail = [37] ∨ ∃ a, tail = [37, a]) : percentDecode (enc ++ tail) = raw ++ tail := by
  rw [percentDecode_eq]
  have hs : pctDecodeList tail = tail := pctDecodeList_short _ (by rcases ht with rfl | ⟨a, rfl⟩ <;> simp)
  induction h with
  | nil => simpa using hs
  | plain b enc raw hb _ ih => simp only [List.cons_append]; rw [pctDecodeList_cons_ne _ _ hb, ih]
  | escaped h l b hv lv enc raw h1 h2 hb _ ih =>
    simp [pctDecodeList, ih, unhexPair_of_hex h l b hv lv h1 h2 hb]

/-- C04: text without `%` is unchanged. -/
theorem C04_no_percent (s : Bytes) (h : 37 ∉ s) : percentDecode s = s := by
  apply C04_decode_encoded
  induction s with
  | nil => exact .nil
  | cons a s ih =>
    simp at h
    exact .plain a s s (fun e => h.1 e.symm) (ih h.2)

/-- States the in-place decoder goes through when started on `data`. -/
inductive PctReach (data : Bytes) : PctState → Prop where
  | start : PctReach data ⟨data, 0, 0, data.length⟩
  | step (s : PctState) : PctReach data s → s.rd < data.length → PctReach data (pctStep data.length s)

/-- C04 (memory): at every iteration the write position is not ahead of the read position, both lie inside the
`size` bytes given, and an escape is only decoded when its two digits lie inside too. -/
theorem C04_in_bounds (data : Bytes) (s : PctState) (h : PctReach data s) (hr : s.rd < data.length) :
    s.buf.length = data.length ∧ s.wr ≤ s.rd ∧ s.wr < data.length ∧
    ((pctStep data.length s).rd = s.rd + 1 ∨
      ((pctStep data.length s).rd = s.rd + 3 ∧ s.rd + 2 < data.length)) := by
  have inv : s.buf.length = data.length ∧ s.wr ≤ s.rd := by
    clear hr
    induction h with
    | start => simp
    | step s _ _ ih => unfold pctStep; split <;> simp_all <;> omega
  refine ⟨inv.1, inv.2, by omega, ?_⟩
  unfold pctStep
  split
  · simp_all
  · simp

/-- C04: the returned size is the number of decoded bytes and never exceeds the given size. -/
theorem C04_size (data : Bytes) : (percentDecodeInPlace data).2 = (percentDecode data).length ∧
    (percentDecodeInPlace data).2 ≤ data.length ∧ (percentDecodeInPlace data).1.length = data.length := by
  have h := pctLoop_spec data.length ⟨data, 0, 0, data.length⟩ rfl (by simp) (by simp) (by simp)
  simp only [List.take_zero, List.nil_append, List.drop_zero] at h
  have hle := pctDecodeList_length_le data
  rw [percentDecode_eq]
  simp [percentDecodeInPlace]
  omega

theorem unhexPair_any : ∀ a b : Byte, (unhexPair a b).toNat = 16 * (hexVal a).getD 0 + (hexVal b).getD 0 := by
  have h1 : ∀ a : Byte, unhex a < 16 ∧ (unhex a).toNat = (hexVal a).getD 0 := by
    have : ∀ b : BitVec 8, unhex ⟨b⟩ < 16 ∧ (unhex ⟨b⟩).toNat = (hexVal ⟨b⟩).getD 0 := by decide +kernel
    exact fun a => this a.toBitVec
  have h2 : ∀ x y : Byte, x < 16 → y < 16 → ((x <<< 4) ||| y).toNat = 16 * x.toNat + y.toNat := by
    have : ∀ x y : Fin 16, ((UInt8.ofNat x.val <<< 4) ||| UInt8.ofNat y.val).toNat = 16 * x.val + y.val := by decide +kernel
    intro x y hx hy
    have hx' : x.toNat < 16 := hx
    have hy' : y.toNat < 16 := hy
    have := this ⟨x.toNat, hx'⟩ ⟨y.toNat, hy'⟩
    simpa using this
  intro a b
  unfold unhexPair
  rw [h2 _ _ (h1 a).1 (h1 b).1, (h1 a).2, (h1 b).2]

/-- C04, exactly: what any text is decoded to. -/
theorem C04_exactly (s out : Bytes) : percentDecode s = out ↔ PctRead s out := by
  rw [percentDecode_eq]
  constructor
  · rintro rfl
    fun_induction pctDecodeList s with
    | case1 => exact .nil
    | case2 a =>
      by_cases h : a = 37
      · subst h; exact .last _ (by simp)
      · exact .plain _ _ _ h .nil
    | case3 a b =>
      by_cases h : a = 37
      · subst h; exact .last _ (by simp)
      · refine .plain _ _ _ h ?_
        by_cases h : b = 37
        · subst h; exact .last _ (by simp)
        · exact .plain _ _ _ h .nil
    | case4 a b c rest h ih =>
      have h : a = 37 := by simpa using h
      subst h
      exact .triple _ _ _ _ _ (unhexPair_any b c) ih
    | case5 a b c rest h ih => exact .plain _ _ _ (by simpa using h) ih
  · intro h
    induction h with
    | nil => simp [pctDecodeList]
    | plain b s out hb _ ih => rw [pctDecodeList_cons_ne _ _ hb, ih]
    | last s hs => exact pctDecodeList_short _ (by simp; omega)
    | triple h l b s out hb _ ih =>
      simp only [pctDecodeList, beq_self_eq_true, if_true, ih]
      congr 1
      exact UInt8.toNat_inj.1 (by rw [unhexPair_any, hb])

example : PctRead b!"a%4g%%41%2" [97, 64, 4, 49, 37, 50] :=
  .plain _ _ _ (by decide) (.triple _ _ _ _ _ (by decide) (.triple _ _ _ _ _ (by decide) (.plain _ _ _ (by decide) (.last _ (by decide)))))

example : PctEncodes b!"a%2Fb%2f%41" b!"a/b/A" :=
  .plain _ _ _ (by decide) (.escaped _ _ _ 2 15 _ _ (by decide) (by decide) (by decide)
    (.plain _ _ _ (by decide) (.escaped _ _ _ 2 15 _ _ (by decide) (by decide) (by decide)
      (.escaped _ _ _ 4 1 _ _ (by decide) (by decide) (by decide) .nil))))
example : PctReach b!"%41b" (pctStep 4 ⟨b!"%41b", 0, 0, 4⟩) := .step _ .start (by decide)

/-! ## C05 -/

/-- C05 for every value but the most negative one of the integer type: the canonical rendering is appended and
reads back as the number.  Missing from the full property: `number = -2^(bits-1)`, where the code has undefined
behaviour (`C05_most_negative`). -/
theorem C05_appendNumber_partial (bits base : Nat) (hb : 2 ≤ base) (hb' : base ≤ 16) (target : Bytes)
    (number : Int) (h : -(2 ^ (bits - 1) : Int) < number) :
    ∃ r, appendNumber bits base target number = some (target ++ r) ∧
      readInt base r = some number ∧ Canonical r := by
  refine ⟨renderInt base number, appendNumber_eq _ _ _ _ (by omega), ?_⟩
  exact readInt_renderInt base (by omega) hb' number

/-- Digits above 9 are written in lower case, and nothing but digits and a leading minus is written. -/
theorem C05_lowercase (bits base : Nat) (hb : 2 ≤ base) (hb' : base ≤ 16) (target out : Bytes)
    (number : Int) (h : appendNumber bits base target number = some out) :
    ∀ c ∈ out.drop target.length, c = 45 ∨ (48 ≤ c ∧ c ≤ 57) ∨ (97 ≤ c ∧ c ≤ 102) := by
  have hne : number ≠ -(2 ^ (bits - 1) : Int) := by
    intro e; simp [appendNumber, e] at h
  rw [appendNumber_eq _ _ _ _ hne] at h
  simp at h; subst h
  have hd : ∀ d, d < 16 → (48 ≤ digitChar d ∧ digitChar d ≤ 57) ∨ (97 ≤ digitChar d ∧ digitChar d ≤ 102) := by decide
  have : ∀ n, ∀ c ∈ digits base n, (48 ≤ c ∧ c ≤ 57) ∨ (97 ≤ c ∧ c ≤ 102) := by
    intro n
    induction n using digits_ind base (by omega) with
    | h0 n hn => rw [digits_lt hn]; simpa using hd n (by omega)
    | h1 n hn ih =>
      rw [digits_ge (by omega) hn]
      intro c hc
      simp at hc
      rcases hc with hc | rfl
      · exact ih c hc
      · exact hd _ (by have := Nat.mod_lt n (show base > 0 by omega); omega)
  simp only [List.drop_left]
  intro c hc
  unfold renderInt at hc
  split at hc
  · simp at hc; rcases hc with rfl | hc
    · exact .inl rfl
    · exact .inr (this _ c hc)
  · exact .inr (this _ c hc)

/-- The excluded value: `appendNumber<int>` on `INT_MIN` overflows (`n = -n`). -/
theorem C05_most_negative (base : Nat) (target : Bytes) : appendNumber 32 base target (-2147483648) = none := by
  simp [appendNumber]

example : appendNumber 32 10 b!"x" (-120) = some b!"x-120" := by
  rw [appendNumber_eq _ _ _ _ (by decide)]; simp [renderInt, digits, digitsRev, digitChar]
example : appendNumber 32 16 [] 2748 = some b!"abc" := by
  rw [appendNumber_eq _ _ _ _ (by decide)]; simp [renderInt, digits, digitsRev, digitChar]
example : -(2 ^ (32 - 1) : Int) < -2147483647 := by decide

/-! ## C06 -/

theorem colonPos_append (name rest : Bytes) (h : 58 ∉ name) : colonPos (name ++ 58 :: rest) = name.length := by
  induction name with
  | nil => simp [colonPos]
  | cons a l ih => simp at h; simp [colonPos, Ne.symm h.1, ih h.2]

theorem colonPos_none (s : Bytes) (h : 58 ∉ s) : colonPos s = s.length := by
  induction s with
  | nil => simp [colonPos]
  | cons a l ih => simp at h; simp [colonPos, Ne.symm h.1, ih h.2]

/-- C06: the literal `name: value` (any number of spaces after the colon) splits at the first colon. -/
theorem C06_split (name value : Bytes) (k : Nat) (hn : 58 ∉ name) (hv : value.head? ≠ some 32) :
    Header.fromRaw (name ++ 58 :: (List.replicate k 32 ++ value)) = ⟨name, value⟩ := by
  have hs : ∀ k, skipSpaces (List.replicate k 32 ++ value) = value := by
    intro k
    induction k with
    | zero =>
      cases value with
      | nil => rfl
      | cons a l => simp at hv; simp [skipSpaces, hv]
    | succ k ih => simpa [List.replicate_succ, skipSpaces] using ih
  simp only [Header.fromRaw, colonPos_append _ _ hn]
  simp [hs]

/-- C06: without a colon the whole text is the name. -/
theorem C06_no_colon (s : Bytes) (h : 58 ∉ s) : Header.fromRaw s = ⟨s, []⟩ := by
  unfold Header.fromRaw
  split
  · rename_i h0
    have : s = [] := by simpa using h0
    subst this; rfl
  · simp [colonPos_none s h]

example : Header.fromRaw b!"Location: http://a:80/" = ⟨b!"Location", b!"http://a:80/"⟩ := by decide
example : (58 : Byte) ∉ b!"Location" ∧ (b!"http://a:80/").head? ≠ some 32 := by decide

/-! ## C07 -/

theorem copyLoop_spec (rd : Headers → Nat → Header) (l : Headers) (hrd : ∀ cur i, rd cur i = l[i]!) :
    ∀ (n : Nat) (done rest : Headers), rest.length = n → done.length + n = done.length + rest.length →
    ∀ s, s + n = l.length → copyLoop rd (done ++ rest) s done.length n = .done (done ++ l.drop s) := by
  intro n
  induction n with
  | zero => intro done rest hr _ s hs; simp at hr; subst hr; simp [copyLoop, List.drop_eq_nil_of_le (show l.length ≤ s by omega)]
  | succ n ih =>
    intro done rest hr _ s hs
    match rest, hr with
    | r :: rest, hr =>
      simp at hr
      rw [copyLoop, if_pos (by simp), hrd]
      have := ih (done ++ [l[s]!]) rest hr (by omega) (s + 1) (by omega)
      simp at this
      rw [List.set_append_right _ _ (by simp)]
      simp
      have e : l.drop s = l[s]! :: l.drop (s + 1) := by
        rw [List.drop_eq_getElem_cons (by omega)]
        simp [List.getElem!_eq_getElem?_getD, show s < l.length by omega]
      rw [e]
      simpa using this

/-- C07 for two distinct collections: appending concatenates, in order.  Missing: `a += a`, which the code gets
wrong (`C07_self_append`). -/
theorem C07_append_partial (a b : Headers) : appendHeaders a b = .done (a ++ b) := by
  have := copyLoop_spec (fun _ i => b[i]!) b (fun _ _ => rfl) b.length a (List.replicate b.length ⟨[], []⟩)
    (by simp) (by simp) 0 (by simp)
  simpa [appendHeaders] using this

theorem copyLoop_oob (rd : Headers → Nat → Header) : ∀ (n : Nat) (dst : Headers) (s d : Nat),
    d ≤ dst.length → dst.length < d + n → copyLoop rd dst s d n = .outOfBounds := by
  intro n
  induction n with
  | zero => intro dst s d _ h; omega
  | succ n ih =>
    intro dst s d hd h
    rw [copyLoop]
    split
    · exact ih _ _ _ (by simp; omega) (by simp; omega)
    · rfl

/-- C07 is violated by the code for `a += a`: for every non-empty collection the copy loop writes past the end
of the storage. -/
theorem C07_self_append (a : Headers) (h : a ≠ []) : appendSelf a = .outOfBounds := by
  unfold appendSelf
  have : 0 < a.length := List.length_pos_iff.2 h
  exact copyLoop_oob _ _ _ _ _ (by simp) (by simp; omega)

example : appendHeaders [⟨b!"a", b!"1"⟩] [⟨b!"b", b!"2"⟩, ⟨b!"a", b!"3"⟩]
    = .done [⟨b!"a", b!"1"⟩, ⟨b!"b", b!"2"⟩, ⟨b!"a", b!"3"⟩] := by decide
example : ([⟨b!"a", b!"1"⟩] : Headers) ≠ [] := by decide

/-! ## C43 -/

/-- C43: the table covers exactly the RFC codes, and each entry is the three-digit code, a space and the
(non-empty) reason that `getStatusMessage` returns. -/
theorem C43_table (code : Int) :
    (code ∈ rfcCodes → ∃ reason, reason ≠ [] ∧ getStatusMessage code = some reason ∧
      ∃ digits, digits.length = 3 ∧ readInt 10 digits = some code ∧
        getStatusCodeAndMessage code = some (digits ++ 32 :: reason)) ∧
    (code ∉ rfcCodes → getStatusCodeAndMessage code = none ∧ getStatusMessage code = none) := by
  constructor
  · intro h
    have aux : ∀ c ∈ rfcCodes, ((getStatusCodeAndMessage c).any fun m =>
        decide (m.drop 4 ≠ []) && decide (getStatusMessage c = some (m.drop 4)) && decide ((m.take 3).length = 3)
        && decide (readInt 10 (m.take 3) = some c) && decide (m = m.take 3 ++ 32 :: m.drop 4)) = true := by
      decide +kernel
    have := aux code h
    rw [Option.any_eq_true_iff_get] at this
    obtain ⟨hs, hp⟩ := this
    simp only [Bool.and_eq_true, decide_eq_true_eq] at hp
    obtain ⟨⟨⟨⟨h1, h2⟩, h3⟩, h4⟩, h5⟩ := hp
    refine ⟨_, h1, h2, _, h3, h4, ?_⟩
    rw [← h5]; simp
  · intro h
    have : getStatusCodeAndMessage code = none := by
      unfold getStatusCodeAndMessage
      split <;> first | rfl | (exfalso; apply h; decide)
    simp [getStatusMessage, this]

/-- C43: both lookups fail on exactly the same codes. -/
theorem C43_null_together (code : Int) : getStatusMessage code = none ↔ getStatusCodeAndMessage code = none := by
  unfold getStatusMessage; split <;> simp_all

example : (404 : Int) ∈ rfcCodes ∧ (999 : Int) ∉ rfcCodes := by decide

/-! ## C42 -/

theorem C42_httpDate (d : DateTime) (h : ValidDate d) : getHttpDate d = some (rfc1123 d) := by
  obtain ⟨hwd, hday, hmon, hy, hh, hmi, hs⟩ := h
  have w : ∀ n, n ≤ 7 → 1 ≤ n → nameAt dayNames n = some (weekday n) := by decide +kernel
  have i : ∀ n, n ≤ 59 → nameAt intNames n = some (two n) := by decide +kernel
  have m : ∀ n, n ≤ 12 → 1 ≤ n → nameAt monthNames n = some (monthName n) := by decide +kernel
  have y : digits 10 d.year.natAbs = four d.year.toNat := by
    have e : d.year.natAbs = d.year.toNat := by omega
    have dc : ∀ n, n < 10 → digitChar n = UInt8.ofNat (48 + n) := by decide
    rw [e]
    generalize hn : d.year.toNat = n
    have h1 : 1000 ≤ n := by omega
    have h2 : n ≤ 9999 := by omega
    rw [digits_ge (by omega) (by omega), digits_ge (by omega) (by omega), digits_ge (by omega) (by omega),
      digits_lt (by omega), dc _ (by omega), dc _ (by omega), dc _ (by omega), dc _ (by omega)]
    simp only [four, Nat.div_div_eq_div_mul]
    have h3 : n / 1000 % 10 = n / 1000 := Nat.mod_eq_of_lt (by omega)
    rw [h3]
    rfl
  simp only [getHttpDate, w _ hwd.2 hwd.1, i _ (show d.day ≤ 59 by omega), m _ hmon.2 hmon.1,
    i _ (show d.hour ≤ 59 by omega), i _ hmi, i _ hs, appendNumber_eq 32 10 _ d.year (by simp; omega),
    renderInt, if_neg (show ¬ d.year < 0 by omega), y, Option.bind_eq_bind, Option.bind_some]
  simp [rfc1123]

/-- C42: the layout is 29 bytes and determines the date-time (reading the fields back). -/
theorem C42_readable (d e : DateTime) (hd : ValidDate d) (he : ValidDate e) :
    (rfc1123 d).length = 29 ∧ (rfc1123 d = rfc1123 e → d = e) := by
  have lw : ∀ n, n ≤ 7 → 1 ≤ n → (weekday n).length = 3 := by decide +kernel
  have lm : ∀ n, n ≤ 12 → 1 ≤ n → (monthName n).length = 3 := by decide +kernel
  have iw : ∀ n, n ≤ 7 → 1 ≤ n → ∀ k, k ≤ 7 → 1 ≤ k → weekday n = weekday k → n = k := by decide +kernel
  have im : ∀ n, n ≤ 12 → 1 ≤ n → ∀ k, k ≤ 12 → 1 ≤ k → monthName n = monthName k → n = k := by decide +kernel
  have l2 : ∀ n, (two n).length = 2 := fun _ => rfl
  have l4 : ∀ n, (four n).length = 4 := fun _ => rfl
  have od : ∀ a b, a < 10 → b < 10 → UInt8.ofNat (48 + a) = UInt8.ofNat (48 + b) → a = b := by
    intro a b ha hb h
    have := congrArg UInt8.toNat h
    simp at this; omega
  have i2 : ∀ n k, n ≤ 99 → k ≤ 99 → two n = two k → n = k := by
    intro n k hn hk h
    simp only [two, List.cons.injEq, and_true] at h
    have := od _ _ (Nat.mod_lt _ (by omega)) (Nat.mod_lt _ (by omega)) h.1
    have := od _ _ (Nat.mod_lt _ (by omega)) (Nat.mod_lt _ (by omega)) h.2
    omega
  have i4 : ∀ n k, n ≤ 9999 → k ≤ 9999 → four n = four k → n = k := by
    intro n k hn hk h
    simp only [four, List.cons.injEq, and_true] at h
    have := od _ _ (Nat.mod_lt _ (by omega)) (Nat.mod_lt _ (by omega)) h.1
    have := od _ _ (Nat.mod_lt _ (by omega)) (Nat.mod_lt _ (by omega)) h.2.1
    have := od _ _ (Nat.mod_lt _ (by omega)) (Nat.mod_lt _ (by omega)) h.2.2.1
    have := od _ _ (Nat.mod_lt _ (by omega)) (Nat.mod_lt _ (by omega)) h.2.2.2
    omega
  obtain ⟨a1, a2, a3, a4, a5, a6, a7⟩ := hd
  obtain ⟨c1, c2, c3, c4, c5, c6, c7⟩ := he
  constructor
  · simp [rfc1123, lw _ a1.2 a1.1, lm _ a3.2 a3.1, l2, l4]
  · intro h
    simp only [rfc1123, List.append_assoc] at h
    obtain ⟨h1, h⟩ := List.append_inj h (by rw [lw _ a1.2 a1.1, lw _ c1.2 c1.1])
    obtain ⟨_, h⟩ := List.append_inj h rfl
    obtain ⟨h2, h⟩ := List.append_inj h rfl
    obtain ⟨_, h⟩ := List.append_inj h rfl
    obtain ⟨h3, h⟩ := List.append_inj h (by rw [lm _ a3.2 a3.1, lm _ c3.2 c3.1])
    obtain ⟨_, h⟩ := List.append_inj h rfl
    obtain ⟨h4, h⟩ := List.append_inj h rfl
    obtain ⟨_, h⟩ := List.append_inj h rfl
    obtain ⟨h5, h⟩ := List.append_inj h rfl
    obtain ⟨_, h⟩ := List.append_inj h rfl
    obtain ⟨h6, h⟩ := List.append_inj h rfl
    obtain ⟨_, h⟩ := List.append_inj h rfl
    obtain ⟨h7, h⟩ := List.append_inj h rfl
    have e1 := iw _ a1.2 a1.1 _ c1.2 c1.1 h1
    have e2 := i2 _ _ (by omega) (by omega) h2
    have e3 := im _ a3.2 a3.1 _ c3.2 c3.1 h3
    have e4 := i4 _ _ (by omega) (by omega) h4
    have e5 := i2 _ _ (by omega) (by omega) h5
    have e6 := i2 _ _ (by omega) (by omega) h6
    have e7 := i2 _ _ (by omega) (by omega) h7
    have e8 : d.year = e.year := by omega
    cases d; cases e
    simp only at e1 e2 e3 e4 e5 e6 e7 e8
    subst e1 e2 e3 e5 e6 e7 e8
    rfl

example : ValidDate ⟨7, 6, 11, 1994, 8, 49, 37⟩ := by constructor <;> decide
example : getHttpDate ⟨7, 6, 11, 1994, 8, 49, 37⟩ = some b!"Sun, 06 Nov 1994 08:49:37 GMT" := by
  rw [C42_httpDate _ (by constructor <;> decide)]; decide +kernel

/-! ## C51 -/

/-- What an append call is meant to add. -/
def opText : BAOp → Bytes
  | .bytes s => s
  | .header h => h.name ++ b!": " ++ h.value ++ b!"\r\n"

theorem memcpy_at (a b s : Bytes) (h : s.length ≤ b.length) :
    memcpy (a ++ b) a.length s = some (a ++ s ++ b.drop s.length) := by
  unfold memcpy; simp [h]

theorem qtAppend_spec (k : Nat) (b : BA) (s : Bytes) (hb : b.size ≤ b.capacity) :
    (b.qtAppend k s).contents = b.contents ++ s ∧ (b.qtAppend k s).size ≤ (b.qtAppend k s).capacity := by
  have hc : b.contents.length = b.size := by simp [BA.contents, BA.capacity] at *; omega
  constructor
  · simp only [BA.qtAppend, BA.contents] at *
    rw [List.take_append_of_le_length (by simp at *; omega), List.take_of_length_le (by simp at *; omega)]
  · simp [BA.qtAppend, BA.capacity, hc]

theorem append_spec (k : Nat) (b : BA) (s : Bytes) (hb : b.size ≤ b.capacity) :
    ∃ b', b.append k s = some b' ∧ b'.contents = b.contents ++ s ∧ b'.size ≤ b'.capacity := by
  unfold BA.append
  split
  · rename_i hc
    simp only [BA.capacity] at *
    have := memcpy_at (b.store.take b.size) (b.store.drop b.size) s (by simp; omega)
    simp [Nat.min_eq_left hb] at this
    refine ⟨⟨_, b.size + s.length⟩, by rw [this]; rfl, ?_, ?_⟩
    · simp only [BA.contents]
      rw [← List.append_assoc, List.take_append_of_le_length (by simp; omega), List.take_of_length_le (by simp; omega)]
    · simp; omega
  · exact ⟨_, rfl, qtAppend_spec k b s hb⟩

theorem appendHeader_spec (k : Nat) (b : BA) (h : Header) (hb : b.size ≤ b.capacity) :
    ∃ b', b.appendHeader k h = some b' ∧ b'.contents = b.contents ++ opText (.header h) ∧ b'.size ≤ b'.capacity := by
  unfold BA.appendHeader
  simp only
  split
  · rename_i hc
    obtain ⟨n, v⟩ := h
    simp only [BA.capacity] at *
    generalize hA : b.store.take b.size = A
    generalize hB : b.store.drop b.size = B
    have hS : b.store = A ++ B := by rw [← hA, ← hB]; simp
    have hAl : A.length = b.size := by rw [← hA]; simp; omega
    have hBl : n.length + 2 + v.length + 2 ≤ B.length := by rw [← hB]; simp; omega
    rw [hS, ← hAl, memcpy_at A B n (by omega)]
    simp only [Option.bind_eq_bind, Option.bind_some]
    rw [show A.length + n.length = (A ++ n).length by simp, memcpy_at (A ++ n) _ _ (by simp; omega)]
    simp only [Option.bind_some]
    rw [show (A ++ n).length + 2 = (A ++ n ++ b!": ").length by simp; omega, memcpy_at _ _ _ (by simp; omega)]
    simp only [Option.bind_some]
    rw [show (A ++ n ++ b!": ").length + v.length = (A ++ n ++ b!": " ++ v).length by simp; omega,
      memcpy_at _ _ _ (by simp; omega)]
    refine ⟨_, rfl, ?_, ?_⟩
    · simp only [BA.contents]
      have e1 : ∀ (X Y : Bytes) (m : Nat), m = X.length → (X ++ Y).take m = X := by intros; simp [*]
      rw [e1 _ _ _ (by simp; omega), hS, e1 A B _ hAl.symm]
      simp [opText]
    · simp; omega
  · obtain ⟨h1, h1'⟩ := qtAppend_spec k b h.name hb
    obtain ⟨h2, h2'⟩ := qtAppend_spec k _ b!": " h1'
    obtain ⟨h3, h3'⟩ := qtAppend_spec k _ h.value h2'
    obtain ⟨h4, h4'⟩ := qtAppend_spec k _ b!"\r\n" h3'
    exact ⟨_, rfl, by rw [h4, h3, h2, h1]; simp [opText], h4'⟩

/-- C51: for every sequence of append calls, every initial capacity and every allocation policy, no write leaves
the storage and the result is the concatenation. -/
theorem C51_appends (slack : Nat → Nat) (b : BA) (ops : List BAOp) (hb : b.size ≤ b.capacity) :
    ∃ b', b.run slack ops = some b' ∧ b'.contents = b.contents ++ (ops.map opText).flatten
      ∧ b'.size ≤ b'.capacity := by
  induction ops generalizing b slack with
  | nil => exact ⟨b, rfl, by simp, hb⟩
  | cons op ops ih =>
    have : ∃ b', (match op with | .bytes s => b.append (slack 0) s | .header h => b.appendHeader (slack 0) h) = some b'
        ∧ b'.contents = b.contents ++ opText op ∧ b'.size ≤ b'.capacity := by
      cases op with
      | bytes s => exact append_spec _ b s hb
      | header h => exact appendHeader_spec _ b h hb
    obtain ⟨b', h1, h2, h3⟩ := this
    obtain ⟨b'', g1, g2, g3⟩ := ih (fun i => slack (i + 1)) b' h3
    refine ⟨b'', ?_, by rw [g2, h2]; simp, g3⟩
    cases op <;> simp only at h1 <;> simp [BA.run, h1, g1]

example : (⟨List.replicate 5 0, 0⟩ : BA).run (fun _ => 3) [.bytes b!"GET ", .header ⟨b!"A", b!"b"⟩, .bytes b!"x"]
    = some ⟨b!"GET A: b\r\nx" ++ [0, 0], 11⟩ := by decide

end Pillow.Props
