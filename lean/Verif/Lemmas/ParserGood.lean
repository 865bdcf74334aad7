import Verif.Model.HttpParser
/-!
# Invariants of the response parser: the assertions of the C code hold
-/
namespace Pillow
variable {σ : Type}

/-- The header states while a name is read. -/
def HState.inField : HState → Bool
  | .mChunked | .mKeepAlive | .mClose | .chunked | .keepAlive | .close => false
  | _ => true

/-- What holds of the parser object between two bytes; `k` is `nread` where a chunk size starts. -/
structure Good (k : Nat) (p : HParser) : Prop where
  noBad : p.bad = false
  len : p.contentLength ≤ ullMax
  startChunk : p.state = .chunkSizeStart → p.nread = k
  chunk : (p.state = .chunkSizeStart ∨ p.state = .chunkSize ∨ p.state = .chunkParams ∨ p.state = .chunkSizeAlmostDone ∨ p.state = .chunkData ∨
    p.state = .chunkDataAlmostDone ∨ p.state = .chunkDataDone) → p.fChunked = true
  size : (p.state = .chunkSize ∨ p.state = .chunkParams ∨ p.state = .chunkSizeAlmostDone ∨ p.state = .chunkData ∨ p.state = .bodyIdentity) →
    p.contentLength < ullMax
  data : (p.state = .chunkData ∨ p.state = .bodyIdentity) → p.contentLength ≠ 0
  dataDone : p.state = .chunkDataAlmostDone → p.contentLength = 0
  inField : p.state = .field → p.hstate.inField = true
  inValue : p.state = .value → p.hstate ≠ .connection ∧ p.hstate ≠ .transferEncoding

/-- The callbacks leave the parser alone, or pause it (possibly after a reset); at the end of a message they pause it. -/
structure Tame (cb : CB σ) : Prop where
  tame : ∀ c p s, p.errno = .ok → (cb c p s).1 = p ∨ ((cb c p s).1.errno = .paused ∧ ∀ k, Good k p → Good k (cb c p s).1)
  done : ∀ p s, p.errno = .ok → (cb .messageComplete p s).1.errno ≠ .ok

theorem assert_true (p : HParser) : p.assert true = p := rfl

theorem assert_ok {p : HParser} (he : p.errno = .ok) (q : HParser) : q.assert (p.errno == .ok) = q := by rw [he]; rfl

/-- What is known of the result of a pass through the switch. -/
def ResGood (k : Nat) : Res σ → Prop
  | .go p _ _ n => Good k p ∧ p.errno = .ok ∧ 1 ≤ n
  | .ret p _ _ => p.errno ≠ .ok ∧ p.bad = false ∧ (p.errno = .paused → Good k p)

/-- A parser in a state without conditions. -/
theorem Good.plain {k : Nat} {p : HParser} (hb : p.bad = false) (hl : p.contentLength ≤ ullMax)
    (h : p.state ≠ .chunkSizeStart ∧ p.state ≠ .chunkSize ∧ p.state ≠ .chunkParams ∧ p.state ≠ .chunkSizeAlmostDone ∧ p.state ≠ .chunkData ∧
      p.state ≠ .chunkDataAlmostDone ∧ p.state ≠ .chunkDataDone ∧ p.state ≠ .bodyIdentity ∧ p.state ≠ .field ∧ p.state ≠ .value) : Good k p := by
  obtain ⟨h1, h2, h3, h4, h5, h6, h7, h8, h9, h10⟩ := h
  constructor <;> simp_all

theorem newMessage_cases (p : HParser) : p.newMessage = .startRes ∨ p.newMessage = .dead := by
  unfold HParser.newMessage; split <;> simp

theorem fail_good {k : Nat} {p : HParser} {s : σ} {e : Errno} (hb : p.bad = false) (h1 : e ≠ .ok) (h2 : e ≠ .paused) : ResGood k (fail p s e) :=
  ⟨h1, hb, fun h => absurd h h2⟩

theorem notify_good {cb : CB σ} (ht : Tame cb) {k : Nat} {c : Cb} {p : HParser} {s : σ} {m : Marks} (hg : Good k p) (he : p.errno = .ok) :
    ResGood k (notify cb c p s m) := by
  unfold notify
  rw [he, show (Errno.ok == Errno.ok) = true from rfl, assert_true]
  dsimp only
  rcases ht.tame c p s he with h | ⟨h, h'⟩
  · split
    · rename_i h1; rw [h, he] at h1; exact absurd rfl h1
    · exact ⟨by rw [h]; exact hg, by rw [h]; exact he, Nat.le_refl _⟩
  · rw [if_pos (by rw [h]; simp)]
    exact ⟨by rw [h]; simp, (h' k hg).noBad, fun _ => h' k hg⟩

theorem dataField_good {cb : CB σ} (ht : Tame cb) {k : Nat} {p : HParser} {s : σ} {m : Marks} (hg : Good k p) (he : p.errno = .ok) :
    ResGood k (dataField cb p s m) := by
  unfold dataField
  split
  · exact ⟨hg, he, Nat.le_refl _⟩
  · rename_i bs _
    rw [he, show (Errno.ok == Errno.ok) = true from rfl, assert_true]
    dsimp only
    rcases ht.tame (.field bs) p s he with h | ⟨h, h'⟩
    · rw [if_neg (by rw [h, he]; simp)]
      exact ⟨by rw [h]; exact hg, by rw [h]; exact he, Nat.le_refl _⟩
    · rw [if_pos (by rw [h]; simp)]
      exact ⟨by rw [h]; simp, (h' k hg).noBad, fun _ => h' k hg⟩

theorem dataValue_good {cb : CB σ} (ht : Tame cb) {k : Nat} {p : HParser} {s : σ} {m : Marks} (hg : Good k p) (he : p.errno = .ok) :
    ResGood k (dataValue cb p s m) := by
  unfold dataValue
  split
  · exact ⟨hg, he, Nat.le_refl _⟩
  · rename_i bs _
    rw [he, show (Errno.ok == Errno.ok) = true from rfl, assert_true]
    dsimp only
    rcases ht.tame (.value bs) p s he with h | ⟨h, h'⟩
    · rw [if_neg (by rw [h, he]; simp)]
      exact ⟨by rw [h]; exact hg, by rw [h]; exact he, Nat.le_refl _⟩
    · rw [if_pos (by rw [h]; simp)]
      exact ⟨by rw [h]; simp, (h' k hg).noBad, fun _ => h' k hg⟩

theorem dataBody_good {cb : CB σ} (ht : Tame cb) {k : Nat} {p : HParser} {s : σ} {m : Marks} (hg : Good k p) (he : p.errno = .ok) :
    ResGood k (dataBody cb p s m) := by
  unfold dataBody
  split
  · exact ⟨hg, he, Nat.le_refl _⟩
  · rename_i bs _
    rw [he, show (Errno.ok == Errno.ok) = true from rfl, assert_true]
    dsimp only
    rcases ht.tame (.body bs) p s he with h | ⟨h, h'⟩
    · rw [if_neg (by rw [h, he]; simp)]
      exact ⟨by rw [h]; exact hg, by rw [h]; exact he, Nat.le_refl _⟩
    · rw [if_pos (by rw [h]; simp)]
      exact ⟨by rw [h]; simp, (h' k hg).noBad, fun _ => h' k hg⟩

theorem plain_new {k : Nat} (p : HParser) (hb : p.bad = false) (hl : p.contentLength ≤ ullMax) : Good k { p with state := p.newMessage } := by
  refine Good.plain hb hl ?_
  rcases newMessage_cases p with h | h <;> simp [h]

theorem tame_good {cb : CB σ} (ht : Tame cb) {k : Nat} {c : Cb} {p : HParser} {s : σ} (hg : Good k p) (he : p.errno = .ok) :
    Good k (cb c p s).1 := by
  rcases ht.tame c p s he with h | ⟨_, h⟩
  · rw [h]; exact hg
  · exact h k hg

theorem doHeadersDone_good {cb : CB σ} (ht : Tame cb) {p : HParser} {s : σ} {m : Marks} {ch : Byte} (hb : p.bad = false)
    (he : p.errno = .ok) (hl : p.contentLength ≤ ullMax) : ResGood 0 (doHeadersDone cb p s m ch) := by
  unfold doHeadersDone
  split
  · exact fail_good hb (by simp) (by simp)
  · dsimp only
    split
    · rw [he, show (Errno.ok == Errno.ok) = true from rfl, assert_true]
      have hg := tame_good (k := 0) (c := .messageComplete) (s := s) ht (plain_new { p with nread := 0 } hb hl) he
      have hd := ht.done ({ p with nread := 0, state := HParser.newMessage { p with nread := 0 } } : HParser) s he
      rw [he] at hg hd
      exact ⟨hd, hg.noBad, fun _ => hg⟩
    · split
      · exact notify_good ht (plain_new _ hb hl) he
      · split
        · refine ⟨?_, he, Nat.le_refl _⟩
          constructor <;> simp_all
        · split
          · exact notify_good ht (plain_new _ hb hl) he
          · split
            · refine ⟨?_, he, Nat.le_refl _⟩
              constructor <;> simp_all
              omega
            · split
              · exact notify_good ht (plain_new _ hb hl) he
              · exact ⟨Good.plain hb hl (by simp), he, Nat.le_refl _⟩

theorem doHeadersAlmostDone_good {cb : CB σ} (ht : Tame cb) {p : HParser} {s : σ} {m : Marks} {ch : Byte} (hb : p.bad = false)
    (he : p.errno = .ok) (hl : p.contentLength ≤ ullMax) : ResGood 0 (doHeadersAlmostDone cb p s m ch) := by
  unfold doHeadersAlmostDone
  split
  · exact fail_good hb (by simp) (by simp)
  · split
    · exact notify_good ht (plain_new _ hb hl) he
    · dsimp only
      generalize hq : ({ p with state := .headersDone, upgrade := p.fUpgrade } : HParser) = q
      have hqg : Good 0 q := by subst hq; exact Good.plain hb hl (by simp)
      have hqe : q.errno = .ok := by subst hq; exact he
      rcases ht.tame .headersComplete q s hqe with h | ⟨h, h'⟩
      · rw [if_neg (by rw [h, hqe]; simp), h]
        exact doHeadersDone_good ht hqg.noBad hqe hqg.len
      · rw [if_pos (by rw [h]; simp)]
        exact ⟨by rw [h]; simp, (h' 0 hqg).noBad, fun _ => h' 0 hqg⟩

theorem doFieldStart_good {cb : CB σ} (ht : Tame cb) {p : HParser} {s : σ} {m : Marks} {ch : Byte} (hb : p.bad = false)
    (he : p.errno = .ok) (hl : p.contentLength ≤ ullMax) : ResGood 0 (doFieldStart cb p s m ch) := by
  unfold doFieldStart
  split
  · exact ⟨Good.plain hb hl (by simp), he, Nat.le_refl _⟩
  · split
    · exact doHeadersAlmostDone_good ht hb he hl
    · dsimp only
      split
      · exact fail_good hb (by simp) (by simp)
      · refine ⟨?_, he, Nat.le_refl _⟩
        constructor <;> simp_all
        repeat' split
        all_goals rfl

theorem matchStep_facts (name : Bytes) (f : HState) (p : HParser) (c : Byte) :
    (matchStep name f p c).bad = p.bad ∧ (matchStep name f p c).contentLength = p.contentLength ∧ (matchStep name f p c).state = p.state ∧
    (matchStep name f p c).errno = p.errno ∧ (matchStep name f p c).nread = p.nread ∧ (matchStep name f p c).fChunked = p.fChunked ∧
    ((matchStep name f p c).hstate = .general ∨ (matchStep name f p c).hstate = f ∨ (matchStep name f p c).hstate = p.hstate) := by
  unfold matchStep; dsimp only
  split
  · simp
  · split <;> simp

theorem good_field {k : Nat} {p : HParser} (hb : p.bad = false) (hl : p.contentLength ≤ ullMax) (hs : p.state = .field)
    (hh : p.hstate.inField = true) : Good k p := by
  constructor <;> simp_all

theorem good_value {k : Nat} {p : HParser} (hb : p.bad = false) (hl : p.contentLength ≤ ullMax) (hs : p.state = .value)
    (hh : p.hstate ≠ .connection ∧ p.hstate ≠ .transferEncoding) : Good k p := by
  constructor <;> simp_all

theorem fieldChar_good {k : Nat} {p : HParser} {c ch : Byte} (hg : Good k p) (hs : p.state = .field) :
    Good k (fieldChar p c ch) ∧ (fieldChar p c ch).errno = p.errno ∧ (fieldChar p c ch).state = .field := by
  have hm : ∀ name f, HState.inField f = true → Good k (matchStep name f p c) ∧ (matchStep name f p c).errno = p.errno ∧
      (matchStep name f p c).state = .field := by
    intro name f hf
    obtain ⟨h1, h2, h3, h4, h5, h6, h7⟩ := matchStep_facts name f p c
    refine ⟨good_field (h1 ▸ hg.noBad) (h2 ▸ hg.len) (h3 ▸ hs) ?_, h4, h3 ▸ hs⟩
    rcases h7 with h | h | h <;> rw [h]
    · rfl
    · exact hf
    · exact hg.inField hs
  have hh := hg.inField hs
  unfold fieldChar
  split
  · exact ⟨hg, rfl, hs⟩
  · exact ⟨good_field hg.noBad hg.len hs (by dsimp only; split <;> rfl), rfl, hs⟩
  · exact ⟨good_field hg.noBad hg.len hs (by dsimp only; split <;> rfl), rfl, hs⟩
  · exact ⟨good_field hg.noBad hg.len hs (by dsimp only; repeat' split
                                             all_goals rfl), rfl, hs⟩
  · exact hm _ _ rfl
  · exact hm _ _ rfl
  · exact hm _ _ rfl
  · exact hm _ _ rfl
  · exact hm _ _ rfl
  all_goals try (split <;> first | exact ⟨good_field hg.noBad hg.len hs rfl, rfl, hs⟩ | exact ⟨hg, rfl, hs⟩)
  rename_i h1 h2 h3 h4 h5 h6 h7 h8 h9 h10 h11 h12 h13
  exfalso
  revert hh
  cases hst : p.hstate <;> simp_all [HState.inField]

theorem doField_good {cb : CB σ} (ht : Tame cb) {p : HParser} {s : σ} {m : Marks} {ch : Byte} (hg : Good 1 p) (hs : p.state = .field)
    (he : p.errno = .ok) : ResGood 0 (doField cb p s m ch) := by
  have hg0 : Good 0 p := good_field hg.noBad hg.len hs (hg.inField hs)
  unfold doField
  dsimp only
  split
  · obtain ⟨h1, h2, _⟩ := fieldChar_good (c := token ch) (ch := ch) hg0 hs
    exact ⟨h1, h2.trans he, Nat.le_refl _⟩
  · split
    · exact dataField_good ht (Good.plain hg.noBad hg.len (by simp)) he
    · split
      · exact dataField_good ht (Good.plain hg.noBad hg.len (by simp)) he
      · split
        · exact dataField_good ht (Good.plain hg.noBad hg.len (by simp)) he
        · exact fail_good hg.noBad (by simp) (by simp)

theorem isNum_le {ch : Byte} : ch.toNat - 48 ≤ ullMax := by
  have := ch.toNat_lt
  unfold ullMax; omega

theorem doValueStart_good {cb : CB σ} (ht : Tame cb) {p : HParser} {s : σ} {m : Marks} {ch : Byte} (hg : Good 1 p) (hs : p.state = .valueStart)
    (he : p.errno = .ok) : ResGood 0 (doValueStart cb p s m ch) := by
  unfold doValueStart
  split
  · exact ⟨Good.plain hg.noBad hg.len (by simp [hs]), he, Nat.le_refl _⟩
  · dsimp only
    split
    · exact dataValue_good ht (Good.plain hg.noBad hg.len (by simp)) he
    · split
      · exact dataValue_good ht (Good.plain hg.noBad hg.len (by simp)) he
      · split
        · exact ⟨good_value hg.noBad hg.len rfl (by simp), he, Nat.le_refl _⟩
        · exact ⟨good_value hg.noBad hg.len rfl (by dsimp only; split <;> simp), he, Nat.le_refl _⟩
        · split
          · exact fail_good hg.noBad (by simp) (by simp)
          · rename_i h _
            exact ⟨good_value hg.noBad isNum_le rfl (by dsimp only; rw [h]; simp), he, Nat.le_refl _⟩
        · exact ⟨good_value hg.noBad hg.len rfl (by dsimp only; repeat' split
                                                    all_goals simp), he, Nat.le_refl _⟩
        · exact ⟨good_value hg.noBad hg.len rfl (by simp), he, Nat.le_refl _⟩

theorem doAlmostDone_good {p : HParser} {s : σ} {m : Marks} {ch : Byte} (hb : p.bad = false)
    (he : p.errno = .ok) (hl : p.contentLength ≤ ullMax) : ResGood 0 (doAlmostDone p s m ch) := by
  unfold doAlmostDone
  split
  · exact fail_good hb (by simp) (by simp)
  · dsimp only
    split <;> exact ⟨Good.plain hb hl (by simp), he, Nat.le_refl _⟩

theorem addDigit_facts {p q : HParser} {base d : Nat} (h : addDigit p base d = some q) :
    ∃ t, t < ullMax ∧ q = { p with contentLength := t } := by
  unfold addDigit at h
  dsimp only at h
  split at h
  · cases h
  · rename_i h1
    refine ⟨_, ?_, (Option.some.inj h).symm⟩
    have : (p.contentLength * base + d) % 2 ^ 64 < 2 ^ 64 := Nat.mod_lt _ (by decide)
    unfold ullMax at h1 ⊢
    omega

theorem valueChar_good {p q : HParser} {c ch : Byte} (hg : Good 1 p) (hs : p.state = .value) (h : valueChar p c ch = some q) :
    Good 0 q ∧ q.errno = p.errno ∧ q.state = .value := by
  have hh := hg.inValue hs
  have hm : ∀ name f, f ≠ HState.connection → f ≠ HState.transferEncoding → some (matchStep name f p c) = some q → Good 0 q ∧ q.errno = p.errno ∧
      q.state = .value := by
    intro name f hf hf' h
    have h := Option.some.inj h
    subst h
    obtain ⟨h1, h2, h3, h4, h5, h6, h7⟩ := matchStep_facts name f p c
    refine ⟨good_value (h1 ▸ hg.noBad) (h2 ▸ hg.len) (h3 ▸ hs) ?_, h4, h3 ▸ hs⟩
    rcases h7 with h | h | h <;> rw [h]
    · simp
    · exact ⟨hf, hf'⟩
    · exact hh
  have hp : Good 0 p := good_value hg.noBad hg.len hs hh
  unfold valueChar at h
  split at h
  · cases h; exact ⟨hp, rfl, hs⟩
  · simp_all
  · simp_all
  · rename_i hc
    split at h
    · cases h; exact ⟨hp, rfl, hs⟩
    · split at h
      · cases h
      · obtain ⟨t, ht, rfl⟩ := addDigit_facts h
        exact ⟨good_value hg.noBad (Nat.le_of_lt ht) hs hh, rfl, hs⟩
  · exact hm _ _ (by simp) (by simp) h
  · exact hm _ _ (by simp) (by simp) h
  · exact hm _ _ (by simp) (by simp) h
  all_goals
    first
    | (split at h <;> cases h <;> first | exact ⟨hp, rfl, hs⟩ | exact ⟨good_value hg.noBad hg.len hs (by simp), rfl, hs⟩)
    | (cases h; exact ⟨good_value hg.noBad hg.len rfl (by simp), rfl, rfl⟩)

theorem doValue_good {cb : CB σ} (ht : Tame cb) {p : HParser} {s : σ} {m : Marks} {ch : Byte} (hg : Good 1 p) (hs : p.state = .value)
    (he : p.errno = .ok) : ResGood 0 (doValue cb p s m ch) := by
  unfold doValue
  split
  · exact dataValue_good ht (Good.plain hg.noBad hg.len (by simp)) he
  · split
    · dsimp only
      split
      · exact doAlmostDone_good hg.noBad he hg.len
      · rename_i bs _
        rw [assert_ok he]
        generalize hq : ({ p with state := .almostDone } : HParser) = q
        have hqg : Good 0 q := by subst hq; exact Good.plain hg.noBad hg.len (by simp)
        have hqe : q.errno = .ok := by subst hq; exact he
        rcases ht.tame (.value bs) q s hqe with h | ⟨h, h'⟩
        · rw [if_neg (by rw [h, hqe]; simp), h]
          exact doAlmostDone_good hqg.noBad hqe hqg.len
        · rw [if_pos (by rw [h]; simp)]
          exact ⟨by rw [h]; simp, (h' 0 hqg).noBad, fun _ => h' 0 hqg⟩
    · split
      · exact fail_good hg.noBad (by simp) (by simp)
      · rename_i h
        obtain ⟨h1, h2, _⟩ := valueChar_good hg hs h
        exact ⟨h1, h2.trans he, Nat.le_refl _⟩


theorem doBodyIdentity_good {cb : CB σ} (ht : Tame cb) {p : HParser} {s : σ} {m : Marks} {rest : Bytes} (hr : rest ≠ [])
    (hg : Good 1 p) (hs : p.state = .bodyIdentity) (he : p.errno = .ok) : ResGood 0 (doBodyIdentity cb p s m rest) := by
  have h0 := hg.data (Or.inr hs)
  have h1 := hg.size (by simp [hs])
  have hlen : 1 ≤ rest.length := by cases rest with
    | nil => exact absurd rfl hr
    | cons a b => simp
  unfold doBodyIdentity
  dsimp only
  rw [show (decide (p.contentLength ≠ 0) && decide (p.contentLength ≠ ullMax)) = true by simp; omega, assert_true]
  split
  · rename_i hz
    rw [assert_ok he]
    generalize hq : ({ p with contentLength := p.contentLength - min p.contentLength rest.length, state := .messageDone } : HParser) = q
    have hqg : Good 0 q := by subst hq; exact Good.plain hg.noBad (by dsimp only; omega) (by simp)
    have hqe : q.errno = .ok := by subst hq; exact he
    generalize hc : Cb.body _ = c
    rcases ht.tame c q s hqe with h | ⟨h, h'⟩
    · rw [if_neg (by rw [h, hqe]; simp), h, assert_ok hqe]
      generalize (cb c q s).2 = s'
      have hn := plain_new (k := 0) q hqg.noBad hqg.len
      have he' : ({ q with state := q.newMessage } : HParser).errno = .ok := hqe
      generalize ({ q with state := q.newMessage } : HParser) = q' at hn he' ⊢
      rcases ht.tame .messageComplete q' s' he' with h | ⟨h, h'⟩
      · rw [if_neg (by rw [h, he']; simp), h]
        refine ⟨hn, he', ?_⟩
        omega
      · rw [if_pos (by rw [h]; simp)]
        exact ⟨by rw [h]; simp, (h' 0 hn).noBad, fun _ => h' 0 hn⟩
    · rw [if_pos (by rw [h]; simp)]
      exact ⟨by rw [h]; simp, (h' 0 hqg).noBad, fun _ => h' 0 hqg⟩
  · rename_i hz
    refine ⟨?_, he, by omega⟩
    have hb := hg.noBad
    constructor <;> simp_all <;> omega

theorem doChunkData_good {p : HParser} {s : σ} {m : Marks} {rest : Bytes} (hr : rest ≠ [])
    (hg : Good 1 p) (hs : p.state = .chunkData) (he : p.errno = .ok) : ResGood 0 (doChunkData p s m rest) := by
  have h0 := hg.data (Or.inl hs)
  have h1 := hg.size (by simp [hs])
  have h2 := hg.chunk (by simp [hs])
  have hlen : 1 ≤ rest.length := by cases rest with
    | nil => exact absurd rfl hr
    | cons a b => simp
  unfold doChunkData
  dsimp only
  rw [show (p.fChunked && decide (p.contentLength ≠ 0) && decide (p.contentLength ≠ ullMax)) = true by simp [h2]; omega, assert_true]
  have hb := hg.noBad
  split
  · refine ⟨?_, he, by omega⟩
    constructor <;> simp_all
  · refine ⟨?_, he, by omega⟩
    constructor <;> simp_all <;> omega

theorem switch_good {cb : CB σ} (ht : Tame cb) {p : HParser} {s : σ} {m : Marks} {ch : Byte} {tl : Bytes}
    (hg : Good 1 p) (he : p.errno = .ok) : ResGood 0 (switch cb p s m ch (ch :: tl)) := by
  have hb := hg.noBad
  have hl := hg.len
  unfold switch
  split
  · rename_i hs
    split
    · exact ⟨Good.plain hb hl (by simp [hs]), he, Nat.le_refl _⟩
    · exact fail_good hb (by simp) (by simp)
  · rename_i hs
    dsimp only
    split
    · exact notify_good ht (Good.plain hb (Nat.le_refl _) (by simp)) he
    · split
      · exact notify_good ht (Good.plain hb (Nat.le_refl _) (by simp [hs])) he
      · exact fail_good hb (by simp) (by simp)
  · split
    · exact fail_good hb (by simp) (by simp)
    · exact ⟨Good.plain hb hl (by simp), he, Nat.le_refl _⟩
  · split
    · exact fail_good hb (by simp) (by simp)
    · exact ⟨Good.plain hb hl (by simp), he, Nat.le_refl _⟩
  · split
    · exact fail_good hb (by simp) (by simp)
    · exact ⟨Good.plain hb hl (by simp), he, Nat.le_refl _⟩
  · split
    · exact fail_good hb (by simp) (by simp)
    · exact ⟨Good.plain hb hl (by simp), he, Nat.le_refl _⟩
  · split
    · exact fail_good hb (by simp) (by simp)
    · exact ⟨Good.plain hb hl (by simp), he, Nat.le_refl _⟩
  · rename_i hs
    split
    · exact ⟨Good.plain hb hl (by simp), he, Nat.le_refl _⟩
    · split
      · exact fail_good hb (by simp) (by simp)
      · dsimp only
        split
        · exact fail_good hb (by simp) (by simp)
        · exact ⟨Good.plain hb hl (by simp [hs]), he, Nat.le_refl _⟩
  · split
    · exact fail_good hb (by simp) (by simp)
    · exact ⟨Good.plain hb hl (by simp), he, Nat.le_refl _⟩
  · rename_i hs
    split
    · exact ⟨Good.plain hb hl (by simp), he, Nat.le_refl _⟩
    · split
      · exact fail_good hb (by simp) (by simp)
      · dsimp only
        split
        · exact fail_good hb (by simp) (by simp)
        · exact ⟨Good.plain hb hl (by simp [hs]), he, Nat.le_refl _⟩
  · rename_i hs
    split
    · split
      · exact ⟨Good.plain hb hl (by simp [hs]), he, Nat.le_refl _⟩
      · exact fail_good hb (by simp) (by simp)
    · exact ⟨Good.plain hb hl (by simp), he, Nat.le_refl _⟩
  · rename_i hs
    split
    · split
      · exact ⟨Good.plain hb hl (by simp), he, Nat.le_refl _⟩
      · split
        · exact ⟨Good.plain hb hl (by simp), he, Nat.le_refl _⟩
        · split
          · exact ⟨Good.plain hb hl (by simp), he, Nat.le_refl _⟩
          · exact fail_good hb (by simp) (by simp)
    · dsimp only
      split
      · exact fail_good hb (by simp) (by simp)
      · exact ⟨Good.plain hb hl (by simp [hs]), he, Nat.le_refl _⟩
  · rename_i hs
    split
    · exact ⟨Good.plain hb hl (by simp), he, Nat.le_refl _⟩
    · split
      · exact ⟨Good.plain hb hl (by simp), he, Nat.le_refl _⟩
      · exact ⟨Good.plain hb hl (by simp [hs]), he, Nat.le_refl _⟩
  · split
    · exact fail_good hb (by simp) (by simp)
    · exact ⟨Good.plain hb hl (by simp), he, Nat.le_refl _⟩
  · exact doFieldStart_good ht hb he hl
  · rename_i hs; exact doField_good ht hg hs he
  · rename_i hs; exact doValueStart_good ht hg hs he
  · rename_i hs; exact doValue_good ht hg hs he
  · exact doAlmostDone_good hb he hl
  · split
    · exact ⟨Good.plain hb hl (by simp), he, Nat.le_refl _⟩
    · exact doFieldStart_good ht hb he hl
  · exact doHeadersAlmostDone_good ht hb he hl
  · exact doHeadersDone_good ht hb he hl
  · rename_i hs; exact doBodyIdentity_good ht (by simp) hg hs he
  · rename_i hs; exact ⟨Good.plain hb hl (by simp [hs]), he, by simp⟩
  · exact notify_good ht (plain_new _ hb hl) he
  · rename_i hs
    rw [show (p.nread == 1 && p.fChunked) = true by simp [hg.startChunk hs, hg.chunk (by simp [hs])], assert_true]
    have hc := hg.chunk (by simp [hs])
    dsimp only
    split
    · exact fail_good hb (by simp) (by simp)
    · rename_i d hd
      have hd : d < 16 := by
        unfold unhexC at hd
        have := ch.toNat_lt
        repeat' split at hd
        all_goals first | cases hd | skip
        all_goals (rename_i h; simp only [UInt8.le_iff_toNat_le] at h; simp at h; omega)
      refine ⟨?_, he, Nat.le_refl _⟩
      have : ullMax = 18446744073709551615 := rfl
      constructor <;> simp_all <;> omega
  · rename_i hs
    have hc := hg.chunk (by simp [hs])
    have hsz := hg.size (by simp [hs])
    rw [hc, assert_true]
    dsimp only
    split
    · refine ⟨?_, he, Nat.le_refl _⟩
      constructor <;> simp_all
    · split
      · split
        · refine ⟨?_, he, Nat.le_refl _⟩
          constructor <;> simp_all
        · exact fail_good hb (by simp) (by simp)
      · split
        · exact fail_good hb (by simp) (by simp)
        · rename_i h
          obtain ⟨t, ht, rfl⟩ := addDigit_facts h
          refine ⟨?_, he, Nat.le_refl _⟩
          constructor <;> simp_all <;> omega
  · rename_i hs
    have hc := hg.chunk (by simp [hs])
    have hsz := hg.size (by simp [hs])
    rw [hc, assert_true]
    dsimp only
    split
    · refine ⟨?_, he, Nat.le_refl _⟩
      constructor <;> simp_all
    · refine ⟨?_, he, Nat.le_refl _⟩
      constructor <;> simp_all
  · rename_i hs
    have hc := hg.chunk (by simp [hs])
    have hsz := hg.size (by simp [hs])
    rw [hc, assert_true]
    dsimp only
    split
    · exact fail_good hb (by simp) (by simp)
    · split
      · exact ⟨Good.plain hb hl (by simp), he, Nat.le_refl _⟩
      · refine ⟨?_, he, Nat.le_refl _⟩
        constructor <;> simp_all
  · rename_i hs; exact doChunkData_good (by simp) hg hs he
  · rename_i hs
    have hc := hg.chunk (by simp [hs])
    have hd := hg.dataDone hs
    rw [show (p.fChunked && p.contentLength == 0) = true by simp [hc, hd], assert_true]
    dsimp only
    split
    · exact fail_good hb (by simp) (by simp)
    · refine dataBody_good ht ?_ he
      constructor <;> simp_all
  · rename_i hs
    have hc := hg.chunk (by simp [hs])
    rw [hc, assert_true]
    dsimp only
    split
    · exact fail_good hb (by simp) (by simp)
    · refine ⟨?_, he, Nat.le_refl _⟩
      constructor <;> simp_all


/-- How far a pass goes. -/
def ResOne : Res σ → Prop
  | .go _ _ _ n => n = 1
  | .ret _ _ n => n ≤ 1

theorem notify_one {cb : CB σ} {c : Cb} {p : HParser} {s : σ} {m : Marks} : ResOne (notify cb c p s m) := by
  unfold notify; (try dsimp only); split <;> (first | exact (rfl : (1:Nat) = 1) | exact Nat.le_refl 1 | exact Nat.zero_le 1)
theorem dataField_one {cb : CB σ} {p : HParser} {s : σ} {m : Marks} : ResOne (dataField cb p s m) := by
  unfold dataField; split <;> (try dsimp only) <;> first | (first | exact (rfl : (1:Nat) = 1) | exact Nat.le_refl 1 | exact Nat.zero_le 1) | (split <;> (first | exact (rfl : (1:Nat) = 1) | exact Nat.le_refl 1 | exact Nat.zero_le 1))
theorem dataValue_one {cb : CB σ} {p : HParser} {s : σ} {m : Marks} : ResOne (dataValue cb p s m) := by
  unfold dataValue; split <;> (try dsimp only) <;> first | (first | exact (rfl : (1:Nat) = 1) | exact Nat.le_refl 1 | exact Nat.zero_le 1) | (split <;> (first | exact (rfl : (1:Nat) = 1) | exact Nat.le_refl 1 | exact Nat.zero_le 1))
theorem dataBody_one {cb : CB σ} {p : HParser} {s : σ} {m : Marks} : ResOne (dataBody cb p s m) := by
  unfold dataBody; split <;> (try dsimp only) <;> first | (first | exact (rfl : (1:Nat) = 1) | exact Nat.le_refl 1 | exact Nat.zero_le 1) | (split <;> (first | exact (rfl : (1:Nat) = 1) | exact Nat.le_refl 1 | exact Nat.zero_le 1))
theorem doAlmostDone_one {p : HParser} {s : σ} {m : Marks} {ch : Byte} : ResOne (doAlmostDone p s m ch) := by
  unfold doAlmostDone fail; (try dsimp only); repeat' split
  all_goals (first | exact (rfl : (1:Nat) = 1) | exact Nat.le_refl 1 | exact Nat.zero_le 1)
theorem doHeadersDone_one {cb : CB σ} {p : HParser} {s : σ} {m : Marks} {ch : Byte} : ResOne (doHeadersDone cb p s m ch) := by
  unfold doHeadersDone fail; (try dsimp only); repeat' split
  all_goals first | (first | exact (rfl : (1:Nat) = 1) | exact Nat.le_refl 1 | exact Nat.zero_le 1) | exact notify_one
theorem doHeadersAlmostDone_one {cb : CB σ} {p : HParser} {s : σ} {m : Marks} {ch : Byte} : ResOne (doHeadersAlmostDone cb p s m ch) := by
  unfold doHeadersAlmostDone fail; (try dsimp only); repeat' split
  all_goals first | (first | exact (rfl : (1:Nat) = 1) | exact Nat.le_refl 1 | exact Nat.zero_le 1) | exact notify_one | exact doHeadersDone_one
theorem doFieldStart_one {cb : CB σ} {p : HParser} {s : σ} {m : Marks} {ch : Byte} : ResOne (doFieldStart cb p s m ch) := by
  unfold doFieldStart fail; (try dsimp only); repeat' split
  all_goals first | (first | exact (rfl : (1:Nat) = 1) | exact Nat.le_refl 1 | exact Nat.zero_le 1) | exact doHeadersAlmostDone_one
theorem doField_one {cb : CB σ} {p : HParser} {s : σ} {m : Marks} {ch : Byte} : ResOne (doField cb p s m ch) := by
  unfold doField fail; (try dsimp only); repeat' split
  all_goals first | (first | exact (rfl : (1:Nat) = 1) | exact Nat.le_refl 1 | exact Nat.zero_le 1) | exact dataField_one
theorem doValueStart_one {cb : CB σ} {p : HParser} {s : σ} {m : Marks} {ch : Byte} : ResOne (doValueStart cb p s m ch) := by
  unfold doValueStart fail; (try dsimp only); repeat' split
  all_goals first | (first | exact (rfl : (1:Nat) = 1) | exact Nat.le_refl 1 | exact Nat.zero_le 1) | exact dataValue_one
theorem doValue_one {cb : CB σ} {p : HParser} {s : σ} {m : Marks} {ch : Byte} : ResOne (doValue cb p s m ch) := by
  unfold doValue fail; (try dsimp only); repeat' split
  all_goals first | (first | exact (rfl : (1:Nat) = 1) | exact Nat.le_refl 1 | exact Nat.zero_le 1) | exact dataValue_one | exact doAlmostDone_one

theorem switch_one {cb : CB σ} {p : HParser} {s : σ} {m : Marks} {ch : Byte} {rest : Bytes} (h1 : p.state ≠ .bodyIdentity)
    (h2 : p.state ≠ .chunkData) (h3 : p.state ≠ .bodyEof) : ResOne (switch cb p s m ch rest) := by
  unfold switch fail
  split <;> first
    | exact doFieldStart_one | exact doField_one | exact doValueStart_one | exact doValue_one | exact doAlmostDone_one
    | exact doHeadersAlmostDone_one | exact doHeadersDone_one | (rename_i h; exact absurd h h1) | (rename_i h; exact absurd h h2)
    | (rename_i h; exact absurd h h3) | exact notify_one
    | ((try dsimp only); repeat' split
       all_goals first | (first | exact (rfl : (1:Nat) = 1) | exact Nat.le_refl 1 | exact Nat.zero_le 1) | exact doFieldStart_one | exact notify_one | exact dataBody_one)

theorem switch_rest {cb : CB σ} {p : HParser} {s : σ} {m : Marks} {ch : Byte} (r r' : Bytes) (h1 : p.state ≠ .bodyIdentity)
    (h2 : p.state ≠ .chunkData) (h3 : p.state ≠ .bodyEof) : switch cb p s m ch r = switch cb p s m ch r' := by
  unfold switch
  cases hs : p.state <;> first | rfl | exact absurd hs h1 | exact absurd hs h2 | exact absurd hs h3

end Pillow
