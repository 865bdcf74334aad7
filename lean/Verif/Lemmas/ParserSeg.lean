import Verif.Lemmas.ParserGood
/-!
# The response parser and the segmentation of its input
-/
namespace Pillow
variable {σ : Type}

/-- The marks that can be set in a state. -/
structure MOk (p : HParser) (m : Marks) : Prop where
  field : m.field.isSome ↔ p.state = .field
  value : m.value.isSome ↔ p.state = .value
  body : m.body.isSome → p.state = .bodyIdentity ∨ p.state = .chunkData ∨ p.state = .chunkDataAlmostDone ∨ p.state = .bodyEof

/-- The callbacks for data leave the parser alone and do not depend on the division of the data; the other ones leave the parser alone
or pause it.  `Rel` relates the states that differ by data only. -/
structure Laws (cb : CB σ) (F V B : Bytes → σ → σ) (Rel : σ → σ → Prop) : Prop where
  tame : Tame cb
  field : ∀ bs p s, cb (.field bs) p s = (p, F bs s)
  value : ∀ bs p s, cb (.value bs) p s = (p, V bs s)
  body : ∀ bs p s, cb (.body bs) p s = (p, B bs s)
  fieldApp : ∀ a b s, F (a ++ b) s = F b (F a s)
  valueApp : ∀ a b s, V (a ++ b) s = V b (V a s)
  bodyApp : ∀ a b s, B (a ++ b) s = B b (B a s)
  bodyNil : ∀ s, B [] s = s
  refl : ∀ s, Rel s s
  symm : ∀ s t, Rel s t → Rel t s
  trans : ∀ s t u, Rel s t → Rel t u → Rel s u
  relF : ∀ bs s, Rel s (F bs s)
  relV : ∀ bs s, Rel s (V bs s)
  relB : ∀ bs s, Rel s (B bs s)

/-- The data of the marks is delivered. -/
def flush (F V B : Bytes → σ → σ) (s : σ) (m : Marks) : σ :=
  let s := match m.field with | none => s | some x => F x s
  let s := match m.value with | none => s | some x => V x s
  match m.body with | none => s | some x => B x s

/-- The marks at the beginning of `http_parser_execute`. -/
def fresh (p : HParser) : Marks := { field := if p.state = .field then some [] else none, value := if p.state = .value then some [] else none }

theorem fresh_ok (p : HParser) : MOk p (fresh p) := by
  unfold fresh
  constructor <;> simp

/-- Two configurations that differ in what has already been delivered. -/
structure Sim (F V B : Bytes → σ → σ) (p : HParser) (s : σ) (m : Marks) (s' : σ) (m' : Marks) : Prop where
  ok : MOk p m
  ok' : MOk p m'
  same : flush F V B s m = flush F V B s' m'

/-- The results of two passes. -/
def ResSim (F V B : Bytes → σ → σ) (Rel : σ → σ → Prop) : Res σ → Res σ → Prop
  | .go p s m n, .go p' s' m' n' => p = p' ∧ n = n' ∧ Sim F V B p s m s' m' ∧ m.body.isSome = m'.body.isSome
  | .ret p s n, .ret p' s' n' => p = p' ∧ n = n' ∧ (p.errno = .ok ∨ p.errno = .paused → s = s') ∧ Rel s s'
  | _, _ => False

theorem adv_nil (m : Marks) (h : m = {}) (bs : Bytes) : m.adv bs = {} := by subst h; rfl

section
variable {cb : CB σ} {F V B : Bytes → σ → σ} {Rel : σ → σ → Prop}

theorem Sim.adv (hL : Laws cb F V B Rel) {p : HParser} {s s' : σ} {m m' : Marks} (h : Sim F V B p s m s' m')
    (hb : m.body.isSome = m'.body.isSome) (bs : Bytes) : Sim F V B p s (m.adv bs) s' (m'.adv bs) := by
  obtain ⟨h1, h2, h3⟩ := h
  refine ⟨⟨?_, ?_, ?_⟩, ⟨?_, ?_, ?_⟩, ?_⟩
  · simp [Marks.adv, h1.field]
  · simp [Marks.adv, h1.value]
  · simpa [Marks.adv] using h1.body
  · simp [Marks.adv, h2.field]
  · simp [Marks.adv, h2.value]
  · simpa [Marks.adv] using h2.body
  · have e1 := h1.field; have e2 := h2.field; have e3 := h1.value; have e4 := h2.value; have e5 := h1.body; have e6 := h2.body
    obtain ⟨f, v, b⟩ := m
    obtain ⟨f', v', b'⟩ := m'
    unfold flush Marks.adv at *
    cases f <;> cases v <;> cases b <;> cases f' <;> cases v' <;> cases b' <;>
      simp_all [hL.fieldApp, hL.valueApp, hL.bodyApp]

theorem flush_none (s : σ) : flush F V B s {} = s := rfl

/-- In the states without marks. -/
theorem MOk.none {p : HParser} {m : Marks} (h : MOk p m) (hs : p.state ≠ .field ∧ p.state ≠ .value ∧ p.state ≠ .bodyIdentity ∧
    p.state ≠ .chunkData ∧ p.state ≠ .chunkDataAlmostDone ∧ p.state ≠ .bodyEof) : m = {} := by
  obtain ⟨f, v, b⟩ := m
  have e1 := h.field; have e2 := h.value; have e3 := h.body
  obtain ⟨h1, h2, h3, h4, h5, h6⟩ := hs
  cases f <;> cases v <;> cases b <;> simp_all

theorem rel_flush (hL : Laws cb F V B Rel) (s : σ) (m : Marks) : Rel s (flush F V B s m) := by
  have hF := hL.relF; have hV := hL.relV; have hB := hL.relB; have hR := hL.refl; have hT := hL.trans
  obtain ⟨f, v, b⟩ := m
  unfold flush
  cases f <;> cases v <;> cases b <;> simp only
  · exact hR _
  · exact hB _ _
  · exact hV _ _
  · exact hT _ _ _ (hV _ _) (hB _ _)
  · exact hF _ _
  · exact hT _ _ _ (hF _ _) (hB _ _)
  · exact hT _ _ _ (hF _ _) (hV _ _)
  · exact hT _ _ _ (hT _ _ _ (hF _ _) (hV _ _)) (hB _ _)

theorem Sim.rel (hL : Laws cb F V B Rel) {p : HParser} {s s' : σ} {m m' : Marks} (h : Sim F V B p s m s' m') : Rel s s' :=
  hL.trans _ _ _ (rel_flush hL s m) (h.same ▸ hL.symm _ _ (rel_flush hL s' m'))

theorem fail_sim {p : HParser} {s s' : σ} {e : Errno} (hr : Rel s s') (h1 : e ≠ .ok) (h2 : e ≠ .paused) :
    ResSim F V B Rel (fail p s e) (fail p s' e) :=
  ⟨rfl, rfl, fun h => h.elim (fun h => absurd h h1) fun h => absurd h h2, hr⟩

/-- The marks after a pass. -/
def ResMarks : Res σ → Prop
  | .go p _ m _ => MOk p m
  | .ret _ _ _ => True

theorem mok_none {p : HParser} (hs : p.state ≠ .field ∧ p.state ≠ .value) : MOk p {} := by
  constructor <;> simp [hs.1, hs.2]

theorem notify_marks (ht : Tame cb) {c : Cb} {p : HParser} {s : σ} {m : Marks} (hm : MOk p m) (he : p.errno = .ok) :
    ResMarks (notify cb c p s m) := by
  unfold notify
  rw [assert_ok he]
  dsimp only
  rcases ht.tame c p s he with h | ⟨h, _⟩
  · rw [if_neg (by rw [h, he]; simp), h]; exact hm
  · rw [if_pos (by rw [h]; simp)]; trivial

theorem new_marks (p : HParser) : MOk { p with state := p.newMessage } {} :=
  mok_none (by rcases newMessage_cases p with h | h <;> simp [h])

theorem doHeadersDone_marks (ht : Tame cb) {p : HParser} {s : σ} {ch : Byte} (he : p.errno = .ok) :
    ResMarks (doHeadersDone cb p s {} ch) := by
  unfold doHeadersDone
  split
  · trivial
  · dsimp only
    split
    · trivial
    · split
      · exact notify_marks ht (new_marks _) he
      · split
        · exact mok_none (by simp)
        · split
          · exact notify_marks ht (new_marks _) he
          · split
            · exact mok_none (by simp)
            · split
              · exact notify_marks ht (new_marks _) he
              · exact mok_none (by simp)

theorem doHeadersAlmostDone_marks (ht : Tame cb) {p : HParser} {s : σ} {ch : Byte} (he : p.errno = .ok) :
    ResMarks (doHeadersAlmostDone cb p s {} ch) := by
  unfold doHeadersAlmostDone
  split
  · trivial
  · split
    · exact notify_marks ht (new_marks _) he
    · dsimp only
      generalize hq : ({ p with state := .headersDone, upgrade := p.fUpgrade } : HParser) = q
      have hqe : q.errno = .ok := by subst hq; exact he
      rcases ht.tame .headersComplete q s hqe with h | ⟨h, h'⟩
      · rw [if_neg (by rw [h, hqe]; simp), h]
        exact doHeadersDone_marks ht hqe
      · rw [if_pos (by rw [h]; simp)]; trivial

theorem doFieldStart_marks (ht : Tame cb) {p : HParser} {s : σ} {ch : Byte} (he : p.errno = .ok) :
    ResMarks (doFieldStart cb p s {} ch) := by
  unfold doFieldStart
  split
  · exact mok_none (by simp)
  · split
    · exact doHeadersAlmostDone_marks ht he
    · dsimp only
      split
      · trivial
      · constructor <;> simp

theorem doAlmostDone_marks {p : HParser} {s : σ} {ch : Byte} : ResMarks (doAlmostDone p s {} ch) := by
  unfold doAlmostDone
  split
  · trivial
  · dsimp only
    split <;> exact mok_none (by simp)

theorem mok_value {p : HParser} (hs : p.state = .value) (x : Bytes) : MOk p ⟨none, some x, none⟩ := by
  constructor <;> simp [hs]

theorem mok_field {p : HParser} (hs : p.state = .field) (x : Bytes) : MOk p ⟨some x, none, none⟩ := by
  constructor <;> simp [hs]

theorem doValueStart_marks (hL : Laws cb F V B Rel) {p : HParser} {s : σ} {ch : Byte} (he : p.errno = .ok) (hs : p.state = .valueStart) :
    ResMarks (doValueStart cb p s {} ch) := by
  unfold doValueStart
  split
  · exact mok_none (by simp [hs])
  · dsimp only [Option.or]
    have hd : ∀ q : HParser, q.errno = .ok → q.state ≠ .field ∧ q.state ≠ .value → ResMarks (dataValue cb q s ⟨none, some [], none⟩) := by
      intro q hq hq'
      unfold dataValue
      rw [assert_ok hq]
      dsimp only
      rw [hL.value, if_neg (by simp [hq])]
      exact mok_none hq'
    split
    · exact hd _ he (by simp)
    · split
      · exact hd _ he (by simp)
      · split
        · exact mok_value rfl _
        · exact mok_value rfl _
        · split
          · trivial
          · exact mok_value rfl _
        · exact mok_value rfl _
        · exact mok_value rfl _


theorem resSim_refl (hL : Laws cb F V B Rel) {r : Res σ} (h : ResMarks r) : ResSim F V B Rel r r := by
  cases r with
  | go p s m n => exact ⟨rfl, rfl, ⟨h, h, rfl⟩, rfl⟩
  | ret p s n => exact ⟨rfl, rfl, fun _ => rfl, hL.refl _⟩

/-- The states in which no data is being collected. -/
theorem switch_marks (hL : Laws cb F V B Rel) {p : HParser} {s : σ} {ch : Byte} {rest : Bytes} (he : p.errno = .ok)
    (hs : p.state ≠ .field ∧ p.state ≠ .value ∧ p.state ≠ .bodyIdentity ∧
    p.state ≠ .chunkData ∧ p.state ≠ .chunkDataAlmostDone ∧ p.state ≠ .bodyEof) : ResMarks (switch cb p s {} ch rest) := by
  obtain ⟨s1, s2, s3, s4, s5, s6⟩ := hs
  have ht := hL.tame
  have ha : ∀ q : HParser, ∀ c, (q.assert c).state = q.state := by
    intro q c; unfold HParser.assert; split <;> rfl
  have hst : ∀ q : HParser, q.state = p.state → MOk q {} := fun q h => mok_none (by rw [h]; exact ⟨s1, s2⟩)
  unfold switch
  split
  · split
    · exact hst _ rfl
    · trivial
  · dsimp only
    split
    · exact notify_marks ht (mok_none (by simp)) he
    · split
      · exact notify_marks ht (hst _ rfl) he
      · trivial
  · split
    · trivial
    · exact mok_none (by simp)
  · split
    · trivial
    · exact mok_none (by simp)
  · split
    · trivial
    · exact mok_none (by simp)
  · split
    · trivial
    · exact mok_none (by simp)
  · split
    · trivial
    · exact mok_none (by simp)
  · split
    · exact mok_none (by simp)
    · split
      · trivial
      · dsimp only
        split
        · trivial
        · exact hst _ rfl
  · split
    · trivial
    · exact mok_none (by simp)
  · split
    · exact mok_none (by simp)
    · split
      · trivial
      · dsimp only
        split
        · trivial
        · exact hst _ rfl
  · split
    · split
      · exact hst _ rfl
      · trivial
    · exact mok_none (by simp)
  · split
    · split
      · exact mok_none (by simp)
      · split
        · exact mok_none (by simp)
        · split
          · exact mok_none (by simp)
          · trivial
    · dsimp only
      split
      · trivial
      · exact hst _ rfl
  · split
    · exact mok_none (by simp)
    · split
      · exact mok_none (by simp)
      · exact hst _ rfl
  · split
    · trivial
    · exact mok_none (by simp)
  · exact doFieldStart_marks ht he
  · rename_i h; exact absurd h s1
  · rename_i h; exact doValueStart_marks hL he h
  · rename_i h; exact absurd h s2
  · exact doAlmostDone_marks
  · split
    · exact mok_none (by simp)
    · exact doFieldStart_marks ht he
  · exact doHeadersAlmostDone_marks ht he
  · exact doHeadersDone_marks ht he
  · rename_i h; exact absurd h s3
  · rename_i h; exact absurd h s6
  · exact notify_marks ht (new_marks _) he
  · dsimp only
    split
    · trivial
    · exact mok_none (by simp)
  · dsimp only
    split
    · exact mok_none (by simp)
    · split
      · split
        · exact mok_none (by simp)
        · trivial
      · split
        · trivial
        · rename_i h
          obtain ⟨t, _, rfl⟩ := addDigit_facts h
          exact hst _ (ha _ _)
  · dsimp only
    split
    · exact mok_none (by simp)
    · exact hst _ (ha _ _)
  · dsimp only
    split
    · trivial
    · split <;> exact mok_none (by simp)
  · rename_i h; exact absurd h s4
  · rename_i h; exact absurd h s5
  · dsimp only
    split
    · trivial
    · exact mok_none (by simp)

theorem marks_field {p : HParser} {m : Marks} (h : MOk p m) (hs : p.state = .field) : ∃ x, m = ⟨some x, none, none⟩ := by
  obtain ⟨f, v, b⟩ := m
  have e1 := h.field; have e2 := h.value; have e3 := h.body
  cases f <;> cases v <;> cases b <;> simp_all

theorem marks_value {p : HParser} {m : Marks} (h : MOk p m) (hs : p.state = .value) : ∃ x, m = ⟨none, some x, none⟩ := by
  obtain ⟨f, v, b⟩ := m
  have e1 := h.field; have e2 := h.value; have e3 := h.body
  cases f <;> cases v <;> cases b <;> simp_all

theorem marks_body {p : HParser} {m : Marks} (h : MOk p m) (hs : p.state = .bodyIdentity ∨ p.state = .chunkData ∨ p.state = .chunkDataAlmostDone ∨
    p.state = .bodyEof) : ∃ o, m = ⟨none, none, o⟩ := by
  obtain ⟨f, v, b⟩ := m
  have e1 := h.field; have e2 := h.value
  rcases hs with hs | hs | hs | hs <;> cases f <;> cases v <;> simp_all

theorem dataField_eq (hL : Laws cb F V B Rel) {p : HParser} {s : σ} {x : Bytes} (he : p.errno = .ok) :
    dataField cb p s ⟨some x, none, none⟩ = .go p (F x s) {} 1 := by
  unfold dataField
  rw [assert_ok he]
  dsimp only
  rw [hL.field, if_neg (by simp [he])]

theorem dataValue_eq (hL : Laws cb F V B Rel) {p : HParser} {s : σ} {x : Bytes} (he : p.errno = .ok) :
    dataValue cb p s ⟨none, some x, none⟩ = .go p (V x s) {} 1 := by
  unfold dataValue
  rw [assert_ok he]
  dsimp only
  rw [hL.value, if_neg (by simp [he])]

theorem doField_sim (hL : Laws cb F V B Rel) {p : HParser} {s s' : σ} {m m' : Marks} {ch : Byte} (h : Sim F V B p s m s' m')
    (he : p.errno = .ok) (hs : p.state = .field) (hg : Good 1 p) : ResSim F V B Rel (doField cb p s m ch) (doField cb p s' m' ch) := by
  have hr := h.rel hL
  obtain ⟨x, rfl⟩ := marks_field h.ok hs
  obtain ⟨y, rfl⟩ := marks_field h.ok' hs
  have hxy : F x s = F y s' := h.same
  unfold doField
  dsimp only
  split
  · have hf := (fieldChar_good (c := token ch) (ch := ch) hg hs).2.2
    exact ⟨rfl, rfl, ⟨mok_field hf _, mok_field hf _, h.same⟩, rfl⟩
  · split
    · rw [dataField_eq hL, dataField_eq hL, hxy] <;> first | exact he | exact resSim_refl hL (mok_none (by simp))
    · split
      · rw [dataField_eq hL, dataField_eq hL, hxy] <;> first | exact he | exact resSim_refl hL (mok_none (by simp))
      · split
        · rw [dataField_eq hL, dataField_eq hL, hxy] <;> first | exact he | exact resSim_refl hL (mok_none (by simp))
        · exact fail_sim hr (by simp) (by simp)

theorem doValue_sim (hL : Laws cb F V B Rel) {p : HParser} {s s' : σ} {m m' : Marks} {ch : Byte} (h : Sim F V B p s m s' m')
    (he : p.errno = .ok) (hs : p.state = .value) (hg : Good 1 p) : ResSim F V B Rel (doValue cb p s m ch) (doValue cb p s' m' ch) := by
  have hr := h.rel hL
  obtain ⟨x, rfl⟩ := marks_value h.ok hs
  obtain ⟨y, rfl⟩ := marks_value h.ok' hs
  have hxy : V x s = V y s' := h.same
  unfold doValue
  split
  · rw [dataValue_eq hL, dataValue_eq hL, hxy] <;> first | exact he | exact resSim_refl hL (mok_none (by simp))
  · split
    · dsimp only
      rw [assert_ok he, hL.value, hL.value, if_neg (by simp [he]), if_neg (by simp [he]), hxy]
      exact resSim_refl hL doAlmostDone_marks
    · split
      · exact fail_sim hr (by simp) (by simp)
      · rename_i hv
        have hf := (valueChar_good hg hs hv).2.2
        exact ⟨rfl, rfl, ⟨mok_value hf _, mok_value hf _, h.same⟩, rfl⟩

theorem mok_body {p : HParser} (hs : p.state = .bodyIdentity ∨ p.state = .chunkData ∨ p.state = .chunkDataAlmostDone ∨
    p.state = .bodyEof) (o : Option Bytes) : MOk p ⟨none, none, o⟩ := by
  constructor
  · rcases hs with h | h | h | h <;> simp [h]
  · rcases hs with h | h | h | h <;> simp [h]
  · exact fun _ => hs

theorem body_or (hL : Laws cb F V B Rel) {s s' : σ} {o o' : Option Bytes} (h : flush F V B s ⟨none, none, o⟩ = flush F V B s' ⟨none, none, o'⟩) :
    B (o.getD []) s = B (o'.getD []) s' := by
  unfold flush at h
  cases o <;> cases o' <;> simpa [hL.bodyNil] using h

theorem or_some (o : Option Bytes) : o.or (some []) = some (o.getD []) := by cases o <;> rfl

theorem doBodyIdentity_sim (hL : Laws cb F V B Rel) {p : HParser} {s s' : σ} {m m' : Marks} {rest : Bytes} (h : Sim F V B p s m s' m')
    (he : p.errno = .ok) (hs : p.state = .bodyIdentity) :
    ResSim F V B Rel (doBodyIdentity cb p s m rest) (doBodyIdentity cb p s' m' rest) := by
  obtain ⟨o, rfl⟩ := marks_body h.ok (Or.inl hs)
  obtain ⟨o', rfl⟩ := marks_body h.ok' (Or.inl hs)
  have hxy := body_or hL h.same
  have has : ∀ (q : HParser) (c : Bool), (q.assert c).errno = q.errno ∧ (q.assert c).state = q.state := by
    intro q c; unfold HParser.assert; split <;> exact ⟨rfl, rfl⟩
  unfold doBodyIdentity
  dsimp only
  rw [or_some, or_some, Option.getD_some, Option.getD_some]
  generalize hp1 : HParser.assert p _ = p1
  have e1 : p1.errno = .ok := by rw [← hp1, (has _ _).1, he]
  have e2 : p1.state = .bodyIdentity := by rw [← hp1, (has _ _).2, hs]
  split
  · rw [assert_ok e1, hL.body, hL.body]
    dsimp only
    have hne : ¬ p1.errno ≠ .ok := fun h => h e1
    rw [if_neg hne, if_neg hne, hL.bodyApp, hL.bodyApp, hxy]
    generalize B _ (B _ s') = t
    rw [if_pos ?_]
    · exact ⟨rfl, rfl, fun _ => rfl, hL.refl _⟩
    · rw [assert_ok e1]
      exact hL.tame.done _ _ e1
  · exact ⟨rfl, rfl, ⟨mok_body (by exact Or.inl e2) _, mok_body (by exact Or.inl e2) _, hxy⟩, rfl⟩

theorem doChunkData_sim (hL : Laws cb F V B Rel) {p : HParser} {s s' : σ} {m m' : Marks} {rest : Bytes} (h : Sim F V B p s m s' m')
    (hs : p.state = .chunkData) : ResSim F V B Rel (doChunkData p s m rest) (doChunkData p s' m' rest) := by
  obtain ⟨o, rfl⟩ := marks_body h.ok (by simp [hs])
  obtain ⟨o', rfl⟩ := marks_body h.ok' (by simp [hs])
  have hxy := body_or hL h.same
  have has : ∀ (q : HParser) (c : Bool), (q.assert c).state = q.state := by
    intro q c; unfold HParser.assert; split <;> rfl
  unfold doChunkData
  dsimp only
  rw [or_some, or_some]
  have hb : ∀ q : HParser, q.state = .chunkData ∨ q.state = .chunkDataAlmostDone → ∀ o, MOk q ⟨none, none, o⟩ :=
    fun q hq o => mok_body (by rcases hq with h | h <;> simp [h]) o
  refine ⟨rfl, rfl, ⟨hb _ ?_ _, hb _ ?_ _, hxy⟩, rfl⟩ <;>
  · split
    · exact Or.inr rfl
    · exact Or.inl ((has _ _).trans hs)

theorem switch_sim (hL : Laws cb F V B Rel) {p : HParser} {s s' : σ} {m m' : Marks} {ch : Byte} {rest : Bytes} (h : Sim F V B p s m s' m')
    (he : p.errno = .ok) (hg : Good 1 p) : ResSim F V B Rel (switch cb p s m ch rest) (switch cb p s' m' ch rest) := by
  by_cases h1 : p.state = .field
  · unfold switch; simp only [h1]; exact doField_sim hL h he h1 hg
  by_cases h2 : p.state = .value
  · unfold switch; simp only [h2]; exact doValue_sim hL h he h2 hg
  by_cases h3 : p.state = .bodyIdentity
  · unfold switch; simp only [h3]; exact doBodyIdentity_sim hL h he h3
  by_cases h4 : p.state = .chunkData
  · unfold switch; simp only [h4]; exact doChunkData_sim hL h h4
  by_cases h5 : p.state = .chunkDataAlmostDone
  · unfold switch; simp only [h5]
    have hr := h.rel hL
    obtain ⟨o, rfl⟩ := marks_body h.ok (by simp [h5])
    obtain ⟨o', rfl⟩ := marks_body h.ok' (by simp [h5])
    split
    · exact fail_sim hr (by simp) (by simp)
    · generalize hq : ({ p.assert (p.fChunked && p.contentLength == 0) with state := .chunkDataDone } : HParser) = q
      have hqe : q.errno = .ok := by rw [← hq]; unfold HParser.assert; split <;> exact he
      have hqs : q.state = .chunkDataDone := by rw [← hq]
      have hd : ∀ t o, dataBody cb q t ⟨none, none, o⟩ = .go q (flush F V B t ⟨none, none, o⟩) {} 1 := by
        intro t o
        unfold dataBody
        cases o with
        | none => rfl
        | some x => dsimp only; rw [assert_ok hqe, hL.body, if_neg (by simp [hqe])]; rfl
      rw [hd, hd, h.same]
      exact resSim_refl hL (mok_none (by simp [hqs]))
  by_cases h6 : p.state = .bodyEof
  · unfold switch; simp only [h6]
    obtain ⟨o, rfl⟩ := marks_body h.ok (by simp [h6])
    obtain ⟨o', rfl⟩ := marks_body h.ok' (by simp [h6])
    dsimp only
    rw [or_some, or_some]
    exact ⟨rfl, rfl, ⟨mok_body (by simp [h6]) _, mok_body (by simp [h6]) _, body_or hL h.same⟩, rfl⟩
  have hn := MOk.none h.ok ⟨h1, h2, h3, h4, h5, h6⟩
  have hn' := MOk.none h.ok' ⟨h1, h2, h3, h4, h5, h6⟩
  subst hn hn'
  have hss : s = s' := h.same
  subst hss
  exact resSim_refl hL (switch_marks hL he ⟨h1, h2, h3, h4, h5, h6⟩)


/-- Two results that are the same, except that the data delivered before an error may differ. -/
structure Agree (Rel : σ → σ → Prop) (x y : HParser × σ × Nat) : Prop where
  parser : x.1 = y.1
  consumed : x.2.2 = y.2.2
  state : (x.1.errno = .ok ∨ x.1.errno = .paused) → x.2.1 = y.2.1
  rel : Rel x.2.1 y.2.1

theorem Agree.refl (hL : Laws cb F V B Rel) (x : HParser × σ × Nat) : Agree Rel x x := ⟨rfl, rfl, fun _ => rfl, hL.refl _⟩

theorem Agree.trans (hL : Laws cb F V B Rel) {x y z : HParser × σ × Nat} (h : Agree Rel x y) (h' : Agree Rel y z) : Agree Rel x z :=
  ⟨h.parser.trans h'.parser, h.consumed.trans h'.consumed, fun he => (h.state he).trans (h'.state (h.parser ▸ he)), hL.trans _ _ _ h.rel h'.rel⟩

theorem leftover_eq (hL : Laws cb F V B Rel) {p : HParser} {s : σ} {m : Marks} (hm : MOk p m) (he : p.errno = .ok) :
    leftover cb p s m = (p, flush F V B s m) := by
  unfold leftover flush
  obtain ⟨f, v, b⟩ := m
  have e1 := hm.field; have e2 := hm.value; have e3 := hm.body
  have ha : ∀ q : HParser, q.assert true = q := fun _ => rfl
  cases f <;> cases v <;> cases b <;> simp_all [hL.field, hL.value, hL.body]

/-- The parser at the beginning of the loop body, with the byte counted. -/
def counted (p : HParser) : HParser := if p.state.isHeader then { p with nread := p.nread + 1 } else p

theorem counted_facts (p : HParser) : (counted p).state = p.state ∧ (counted p).errno = p.errno := by
  unfold counted; split <;> exact ⟨rfl, rfl⟩

theorem counted_good {p : HParser} (hg : Good 0 p) : Good 1 (counted p) := by
  unfold counted
  split
  · obtain ⟨h1, h2, h3, h4, h5, h6, h7, h8, h9⟩ := hg
    exact ⟨h1, h2, fun h => by dsimp only; rw [h3 h], h4, h5, h6, h7, h8, h9⟩
  · rename_i hh
    obtain ⟨h1, h2, h3, h4, h5, h6, h7, h8, h9⟩ := hg
    exact ⟨h1, h2, fun h => by rw [h] at hh; exact absurd rfl hh, h4, h5, h6, h7, h8, h9⟩

theorem MOk.counted {p : HParser} {m : Marks} (h : MOk p m) : MOk (counted p) m := by
  obtain ⟨h1, h2, h3⟩ := h
  have := (counted_facts p).1
  exact ⟨by rw [this]; exact h1, by rw [this]; exact h2, by rw [this]; exact h3⟩

theorem Sim.counted {p : HParser} {s s' : σ} {m m' : Marks} (h : Sim F V B p s m s' m') : Sim F V B (counted p) s m s' m' :=
  ⟨h.ok.counted, h.ok'.counted, h.same⟩

theorem execLoop_nil (p : HParser) (s : σ) (m : Marks) (pos : Nat) :
    execLoop cb p s m [] pos = ((leftover cb p s m).1, (leftover cb p s m).2, pos) := by
  unfold execLoop; rfl

theorem execLoop_cons (p : HParser) (s : σ) (m : Marks) (ch : Byte) (tl : Bytes) (pos : Nat) :
    execLoop cb p s m (ch :: tl) pos =
      if (counted p).state.isHeader && (counted p).nread > maxHeaderSize then ({ counted p with errno := .headerOverflow }, s, pos)
      else match switch cb (counted p) s m ch (ch :: tl) with
        | .ret p s n => (p, s, pos + n)
        | .go p s m n => execLoop cb p s (m.adv ((ch :: tl).take n)) (tl.drop (n - 1)) (pos + n) := by
  conv => lhs; unfold execLoop
  rfl

theorem execLoop_sim (hL : Laws cb F V B Rel) : ∀ (data : Bytes) (p : HParser) (s s' : σ) (m m' : Marks) (pos : Nat),
    Sim F V B p s m s' m' → p.errno = .ok → Good 0 p → Agree Rel (execLoop cb p s m data pos) (execLoop cb p s' m' data pos)
  | [], p, s, s', m, m', pos, h, he, hg => by
    rw [execLoop_nil, execLoop_nil, leftover_eq hL h.ok he, leftover_eq hL h.ok' he, h.same]
    exact Agree.refl hL _
  | ch :: tl, p, s, s', m, m', pos, h, he, hg => by
    rw [execLoop_cons, execLoop_cons]
    have hc := counted_good hg
    have hce : (counted p).errno = .ok := (counted_facts p).2.trans he
    have hcs := h.counted
    generalize counted p = q at hc hce hcs ⊢
    split
    · exact ⟨rfl, rfl, fun h => by simp at h, h.rel hL⟩
    · have hsw := switch_sim hL (ch := ch) (rest := ch :: tl) hcs hce hc
      have hsg := switch_good hL.tame (s := s) (m := m) (ch := ch) (tl := tl) hc hce
      revert hsw hsg
      cases switch cb q s m ch (ch :: tl) with
      | ret p1 s1 n1 =>
        cases switch cb q s' m' ch (ch :: tl) with
        | ret p2 s2 n2 =>
          rintro ⟨rfl, rfl, h3, h4⟩ _
          exact ⟨rfl, rfl, h3, h4⟩
        | go p2 s2 m2 n2 => intro h; exact absurd h id
      | go p1 s1 m1 n1 =>
        cases switch cb q s' m' ch (ch :: tl) with
        | ret p2 s2 n2 => intro h; exact absurd h id
        | go p2 s2 m2 n2 =>
          rintro ⟨rfl, rfl, h3, h4⟩ ⟨h5, h6, _⟩
          exact execLoop_sim hL _ _ _ _ _ _ _ (h3.adv hL h4 _) h6 h5
termination_by data => data.length
decreasing_by simp; omega

/-- The position is only counted. -/
theorem execLoop_pos : ∀ (data : Bytes) (p : HParser) (s : σ) (m : Marks) (pos : Nat),
    execLoop cb p s m data pos = ((execLoop cb p s m data 0).1, (execLoop cb p s m data 0).2.1, pos + (execLoop cb p s m data 0).2.2)
  | [], p, s, m, pos => by rw [execLoop_nil, execLoop_nil]; rfl
  | ch :: tl, p, s, m, pos => by
    rw [execLoop_cons, execLoop_cons]
    split
    · rfl
    · split
      · simp
      · rename_i n _
        rw [execLoop_pos _ _ _ _ (pos + n), execLoop_pos _ _ _ _ (0 + n)]
        simp [Nat.add_assoc]
termination_by data => data.length
decreasing_by all_goals (simp; omega)

/-- What has been delivered before does not matter. -/
theorem execLoop_fresh (hL : Laws cb F V B Rel) (data : Bytes) (p : HParser) (s : σ) (m : Marks) (pos : Nat) (hm : MOk p m)
    (he : p.errno = .ok) (hg : Good 0 p) :
    Agree Rel (execLoop cb p s m data pos) (execLoop cb p (flush F V B s m) (fresh p) data pos) := by
  refine execLoop_sim hL _ _ _ _ _ _ _ ⟨hm, fresh_ok p, ?_⟩ he hg
  by_cases h1 : p.state = .field
  · obtain ⟨x, rfl⟩ := marks_field hm h1
    unfold flush fresh
    simp [h1, ← hL.fieldApp]
  by_cases h2 : p.state = .value
  · obtain ⟨x, rfl⟩ := marks_value hm h2
    unfold flush fresh
    simp [h2, ← hL.valueApp]
  · unfold fresh
    rw [if_neg h1, if_neg h2]
    rfl


/-- Parsing goes on with the next segment if it has not stopped. -/
def andThen (cb : CB σ) (x : HParser × σ × Nat) (b : Bytes) : HParser × σ × Nat :=
  if x.1.errno = .ok then
    let y := execLoop cb x.1 x.2.1 (fresh x.1) b 0
    (y.1, y.2.1, x.2.2 + y.2.2)
  else x

theorem counted_body {p : HParser} (hs : p.state = .bodyIdentity ∨ p.state = .chunkData ∨ p.state = .bodyEof) : counted p = p := by
  unfold counted
  rcases hs with h | h | h <;> rw [h] <;> rfl

theorem execLoop_body {p : HParser} (hs : p.state = .bodyIdentity ∨ p.state = .chunkData ∨ p.state = .bodyEof) (s : σ) (m : Marks) (ch : Byte)
    (tl : Bytes) (pos : Nat) : execLoop cb p s m (ch :: tl) pos = match switch cb p s m ch (ch :: tl) with
        | .ret p s n => (p, s, pos + n)
        | .go p s m n => execLoop cb p s (m.adv ((ch :: tl).take n)) (tl.drop (n - 1)) (pos + n) := by
  rw [execLoop_cons, counted_body hs, if_neg]
  rcases hs with h | h | h <;> rw [h] <;> simp [PState.isHeader]

theorem switch_identity {p : HParser} (hs : p.state = .bodyIdentity) (s : σ) (m : Marks) (ch : Byte) (rest : Bytes) :
    switch cb p s m ch rest = doBodyIdentity cb p s m rest := by unfold switch; rw [hs]

theorem switch_chunk {p : HParser} (hs : p.state = .chunkData) (s : σ) (m : Marks) (ch : Byte) (rest : Bytes) :
    switch cb p s m ch rest = doChunkData p s m rest := by unfold switch; rw [hs]

theorem switch_eof {p : HParser} (hs : p.state = .bodyEof) (s : σ) (m : Marks) (ch : Byte) (rest : Bytes) :
    switch cb p s m ch rest = .go p s { m with body := m.body.or (some []) } rest.length := by unfold switch; rw [hs]

/-- A part of the body that does not complete it. -/
theorem doBodyIdentity_part {p : HParser} {s : σ} {m : Marks} {rest : Bytes} (hg : Good 0 p) (hs : p.state = .bodyIdentity)
    (hl : rest.length < p.contentLength) : doBodyIdentity cb p s m rest =
      .go { p with contentLength := p.contentLength - rest.length } s { m with body := some (m.body.getD []) } rest.length := by
  have h0 := hg.data (Or.inr hs)
  have h1 := hg.size (by simp [hs])
  unfold doBodyIdentity
  dsimp only
  rw [show (decide (p.contentLength ≠ 0) && decide (p.contentLength ≠ ullMax)) = true by simp; omega, assert_true,
    show min p.contentLength rest.length = rest.length by omega, or_some, if_neg (by omega)]

theorem doBodyIdentity_full (hL : Laws cb F V B Rel) {p : HParser} {s : σ} {m : Marks} {rest : Bytes} (hg : Good 0 p) (hs : p.state = .bodyIdentity)
    (he : p.errno = .ok) (hl : p.contentLength ≤ rest.length) : doBodyIdentity cb p s m rest =
      let q : HParser := { p with contentLength := 0, state := .messageDone }
      let r := cb .messageComplete { q with state := q.newMessage } (B (m.body.getD [] ++ rest.take p.contentLength) s)
      .ret r.1 r.2 p.contentLength := by
  have h0 := hg.data (Or.inr hs)
  have h1 := hg.size (by simp [hs])
  unfold doBodyIdentity
  dsimp only
  rw [show (decide (p.contentLength ≠ 0) && decide (p.contentLength ≠ ullMax)) = true by simp; omega, assert_true,
    show min p.contentLength rest.length = p.contentLength by omega, or_some, if_pos (by omega), Nat.sub_self, assert_ok he, hL.body]
  dsimp only
  rw [if_neg (show ¬ p.errno ≠ .ok from fun h => h he), assert_ok he, if_pos]
  · simp
  · exact hL.tame.done _ _ he

theorem doChunkData_eq {p : HParser} {s : σ} {m : Marks} {rest : Bytes} (hg : Good 0 p) (hs : p.state = .chunkData) :
    doChunkData p s m rest = .go (if p.contentLength ≤ rest.length then { p with contentLength := 0, state := .chunkDataAlmostDone }
      else { p with contentLength := p.contentLength - rest.length }) s { m with body := some (m.body.getD []) } (min p.contentLength rest.length) := by
  have h0 := hg.data (Or.inl hs)
  have h1 := hg.size (by simp [hs])
  have h2 := hg.chunk (by simp [hs])
  unfold doChunkData
  dsimp only
  rw [show (p.fChunked && decide (p.contentLength ≠ 0) && decide (p.contentLength ≠ ullMax)) = true by simp [h2]; omega, assert_true, or_some]
  by_cases h : p.contentLength ≤ rest.length
  · rw [if_pos h, show min p.contentLength rest.length = p.contentLength by omega, if_pos (by omega), Nat.sub_self]
  · rw [if_neg h, show min p.contentLength rest.length = rest.length by omega, if_neg (by omega)]

theorem take_all (l : Bytes) : l.take l.length = l := by simp

/-- A segment that ends inside a body. -/
theorem body_inside (hL : Laws cb F V B Rel) {p : HParser} {s : σ} {m : Marks} {a : Bytes} (b : Bytes) (pos : Nat) (hm : MOk p m)
    (hg : Good 0 p) (he : p.errno = .ok) (ha : a ≠ [])
    (hs : (p.state = .bodyIdentity ∧ a.length < p.contentLength) ∨ (p.state = .chunkData ∧ a.length < p.contentLength) ∨ p.state = .bodyEof) :
    ∃ (q : HParser) (m' : Marks), MOk q m' ∧ Good 0 q ∧ q.errno = .ok ∧
      execLoop cb p s m a pos = (q, flush F V B s m', pos + a.length) ∧ execLoop cb p s m (a ++ b) pos = execLoop cb q s m' b (pos + a.length) := by
  obtain ⟨ch, tl, rfl⟩ := List.exists_cons_of_ne_nil ha
  have hcat : ∀ (l : Bytes), (l ++ b).length = l.length + b.length := fun l => List.length_append
  rcases hs with ⟨hs, hl⟩ | ⟨hs, hl⟩ | hs
  · have h1 := hg.size (by simp [hs])
    obtain ⟨o, rfl⟩ := marks_body hm (Or.inl hs)
    have hq : Good 0 ({ p with contentLength := p.contentLength - (ch :: tl).length } : HParser) := by
      have hb := hg.noBad
      generalize (ch :: tl).length = n at hl ⊢
      constructor <;> simp_all <;> omega
    refine ⟨{ p with contentLength := p.contentLength - (ch :: tl).length }, ⟨none, none, some (o.getD [] ++ (ch :: tl))⟩,
      mok_body (by exact Or.inl hs) _, hq, he, ?_, ?_⟩
    · rw [execLoop_body (by simp [hs])]
      rw [switch_identity (by exact hs)]
      rw [doBodyIdentity_part hg hs hl]
      dsimp only
      rw [List.drop_of_length_le (by simp), execLoop_nil, take_all,
        show (Marks.adv { body := some (o.getD []) } (ch :: tl)) = ⟨none, none, some (o.getD [] ++ (ch :: tl))⟩ from rfl, leftover_eq hL (mok_body (by exact Or.inl hs) _) (by exact he)]
    · rw [List.cons_append, execLoop_body (by simp [hs])]
      rw [switch_identity (by exact hs)]
      by_cases hb : b = []
      · subst hb
        rw [List.append_nil, doBodyIdentity_part hg hs hl]
        dsimp only
        rw [List.drop_of_length_le (by simp), take_all]
        rfl
      · obtain ⟨c2, t2, rfl⟩ := List.exists_cons_of_ne_nil hb
        rw [execLoop_body (by simp [hs])]
        rw [switch_identity (by exact hs)]
        by_cases hfull : (ch :: tl).length + (c2 :: t2).length < p.contentLength
        · rw [doBodyIdentity_part hg hs (by rw [← List.cons_append, hcat]; exact hfull), doBodyIdentity_part hq hs (by dsimp only; omega)]
          dsimp only
          rw [List.drop_of_length_le (by simp), List.drop_of_length_le (by simp), take_all, take_all, ← List.cons_append, hcat,
            show p.contentLength - ((ch :: tl).length + (c2 :: t2).length) = p.contentLength - (ch :: tl).length - (c2 :: t2).length by omega,
            show pos + ((ch :: tl).length + (c2 :: t2).length) = pos + (ch :: tl).length + (c2 :: t2).length by omega]
          simp [Marks.adv]
        · rw [doBodyIdentity_full hL hg hs he (by rw [← List.cons_append, hcat]; omega), doBodyIdentity_full hL hq hs he (by dsimp only; omega)]
          dsimp only
          rw [← List.cons_append, List.take_append, List.take_of_length_le (by omega)]
          rw [show pos + p.contentLength = pos + (ch :: tl).length + (p.contentLength - (ch :: tl).length) by omega]
          simp
  · have h1 := hg.size (by simp [hs])
    have h2 := hg.chunk (by simp [hs])
    obtain ⟨o, rfl⟩ := marks_body hm (by simp [hs])
    have hq : Good 0 ({ p with contentLength := p.contentLength - (ch :: tl).length } : HParser) := by
      have hb := hg.noBad
      generalize (ch :: tl).length = n at hl ⊢
      constructor <;> simp_all <;> omega
    refine ⟨{ p with contentLength := p.contentLength - (ch :: tl).length }, ⟨none, none, some (o.getD [] ++ (ch :: tl))⟩,
      mok_body (by simp [hs]) _, hq, he, ?_, ?_⟩
    · rw [execLoop_body (by simp [hs])]
      rw [switch_chunk (by exact hs)]
      rw [doChunkData_eq hg hs, if_neg (by omega), show min p.contentLength (ch :: tl).length = (ch :: tl).length by omega]
      dsimp only
      rw [List.drop_of_length_le (by simp), execLoop_nil, take_all,
        show (Marks.adv { body := some (o.getD []) } (ch :: tl)) = ⟨none, none, some (o.getD [] ++ (ch :: tl))⟩ from rfl, leftover_eq hL (mok_body (by simp [hs]) _) (by exact he)]
    · rw [List.cons_append, execLoop_body (by simp [hs])]
      rw [switch_chunk (by exact hs)]
      by_cases hb : b = []
      · subst hb
        rw [List.append_nil, doChunkData_eq hg hs, if_neg (by omega), show min p.contentLength (ch :: tl).length = (ch :: tl).length by omega]
        dsimp only
        rw [List.drop_of_length_le (by simp), take_all]
        rfl
      · obtain ⟨c2, t2, rfl⟩ := List.exists_cons_of_ne_nil hb
        rw [execLoop_body (by simp [hs])]
        rw [switch_chunk (by exact hs)]
        rw [doChunkData_eq hg hs, doChunkData_eq hq hs]
        dsimp only
        rw [← List.cons_append, hcat,
          show min p.contentLength ((ch :: tl).length + (c2 :: t2).length) =
            (ch :: tl).length + min (p.contentLength - (ch :: tl).length) (c2 :: t2).length by omega]
        generalize hk : min (p.contentLength - (ch :: tl).length) (c2 :: t2).length = k
        have hk1 : 1 ≤ k := by simp only [List.length_cons] at hk hl ⊢; omega
        rw [List.take_append, List.take_of_length_le (l := ch :: tl) (by omega), show (ch :: tl).length + k - (ch :: tl).length = k by omega,
          show (tl ++ c2 :: t2).drop ((ch :: tl).length + k - 1) = t2.drop (k - 1) by
            rw [List.length_cons, show tl.length + 1 + k - 1 = tl.length + ((k - 1) + 1) by omega, List.drop_append, List.drop_of_length_le (by omega),
              show tl.length + (k - 1 + 1) - tl.length = (k - 1) + 1 by omega]
            rfl]
        rw [show pos + ((ch :: tl).length + k) = pos + (ch :: tl).length + k by omega]
        by_cases hf : p.contentLength ≤ (ch :: tl).length + (c2 :: t2).length
        · rw [if_pos hf, if_pos (by omega)]
          simp [Marks.adv]
        · rw [if_neg hf, if_neg (by omega),
            show p.contentLength - ((ch :: tl).length + (c2 :: t2).length) = p.contentLength - (ch :: tl).length - (c2 :: t2).length by omega]
          simp [Marks.adv]
  · obtain ⟨o, rfl⟩ := marks_body hm (by simp [hs])
    refine ⟨p, ⟨none, none, some (o.getD [] ++ (ch :: tl))⟩, mok_body (by simp [hs]) _, hg, he, ?_, ?_⟩
    · rw [execLoop_body (by simp [hs])]
      rw [switch_eof (by exact hs)]
      dsimp only
      rw [List.drop_of_length_le (by simp), execLoop_nil, take_all, or_some,
        show (Marks.adv { body := some (o.getD []) } (ch :: tl)) = ⟨none, none, some (o.getD [] ++ (ch :: tl))⟩ from rfl, leftover_eq hL (mok_body (by simp [hs]) _) (by exact he)]
    · rw [List.cons_append, execLoop_body (by simp [hs])]
      rw [switch_eof (by exact hs)]
      dsimp only
      rw [List.drop_of_length_le (by simp), take_all, or_some]
      by_cases hb : b = []
      · subst hb
        rw [List.append_nil]
        rfl
      · obtain ⟨c2, t2, rfl⟩ := List.exists_cons_of_ne_nil hb
        rw [execLoop_body (by simp [hs])]
        rw [switch_eof (by exact hs)]
        dsimp only
        rw [List.drop_of_length_le (by simp), take_all, or_some, ← List.cons_append, hcat]
        simp [Marks.adv, Nat.add_assoc]


theorem mem_body_states {p : HParser} (h : ¬ (p.state = .bodyIdentity ∨ p.state = .chunkData ∨ p.state = .bodyEof)) :
    p.state ≠ .bodyIdentity ∧ p.state ≠ .chunkData ∧ p.state ≠ .bodyEof :=
  ⟨fun e => h (Or.inl e), fun e => h (Or.inr (Or.inl e)), fun e => h (Or.inr (Or.inr e))⟩

/-- The marks after a pass, in all states. -/
theorem switch_marks_all (hL : Laws cb F V B Rel) {p : HParser} {s : σ} {m : Marks} {ch : Byte} {rest : Bytes} (hm : MOk p m)
    (he : p.errno = .ok) (hg : Good 1 p) : ResMarks (switch cb p s m ch rest) := by
  have h := switch_sim hL (s := s) (s' := s) (m := m) (m' := m) (ch := ch) (rest := rest) ⟨hm, hm, rfl⟩ he hg
  revert h
  cases switch cb p s m ch rest with
  | go p s m n => rintro ⟨_, _, h, _⟩; exact h.ok
  | ret p s n => intro; trivial

theorem adv_ok {p : HParser} {m : Marks} (h : MOk p m) (bs : Bytes) : MOk p (m.adv bs) := by
  obtain ⟨h1, h2, h3⟩ := h
  exact ⟨by simp [Marks.adv, h1], by simp [Marks.adv, h2], by simpa [Marks.adv] using h3⟩

theorem execLoop_append (hL : Laws cb F V B Rel) : ∀ (a b : Bytes) (p : HParser) (s : σ) (m : Marks) (pos : Nat),
    MOk p m → p.errno = .ok → Good 0 p → Agree Rel (execLoop cb p s m (a ++ b) pos) (andThen cb (execLoop cb p s m a pos) b)
  | [], b, p, s, m, pos, hm, he, hg => by
    rw [execLoop_nil, leftover_eq hL hm he]
    unfold andThen
    rw [if_pos he]
    dsimp only [List.nil_append]
    rw [← execLoop_pos]
    exact execLoop_fresh hL _ _ _ _ _ hm he hg
  | ch :: tl, b, p, s, m, pos, hm, he, hg => by
    have hc := counted_good hg
    have hce : (counted p).errno = .ok := (counted_facts p).2.trans he
    have hcm := hm.counted
    have hinside : (p.state = .bodyIdentity ∧ (ch :: tl).length < p.contentLength) ∨ (p.state = .chunkData ∧ (ch :: tl).length < p.contentLength) ∨
        p.state = .bodyEof → Agree Rel (execLoop cb p s m (ch :: tl ++ b) pos) (andThen cb (execLoop cb p s m (ch :: tl) pos) b) := by
      intro hs
      obtain ⟨q, m', h1, h2, h3, h4, h5⟩ := body_inside hL b pos hm hg he (s := s) (by simp) hs
      rw [h4, h5]
      unfold andThen
      rw [if_pos h3]
      dsimp only
      rw [← execLoop_pos]
      exact execLoop_fresh hL _ _ _ _ _ h1 h3 h2
    by_cases hb : p.state = .bodyIdentity ∨ p.state = .chunkData ∨ p.state = .bodyEof
    · rcases hb with hs | hs | hs
      · by_cases hl : (ch :: tl).length < p.contentLength
        · exact hinside (Or.inl ⟨hs, hl⟩)
        · rw [List.cons_append, execLoop_body (by simp [hs]), execLoop_body (by simp [hs]), switch_identity hs, switch_identity hs,
            doBodyIdentity_full hL hg hs he (by simp only [List.length_cons, List.length_append] at hl ⊢; omega),
            doBodyIdentity_full hL hg hs he (by omega), ← List.cons_append, List.take_append_of_le_length (by omega)]
          dsimp only
          unfold andThen
          rw [if_neg (by exact hL.tame.done _ _ he)]
          exact Agree.refl hL _
      · by_cases hl : (ch :: tl).length < p.contentLength
        · exact hinside (Or.inr (Or.inl ⟨hs, hl⟩))
        · have h0 := hg.data (Or.inl hs)
          rw [List.cons_append, execLoop_body (by simp [hs]), execLoop_body (by simp [hs]), switch_chunk hs, switch_chunk hs,
            doChunkData_eq hg hs, doChunkData_eq hg hs]
          rw [if_pos (by simp only [List.length_cons, List.length_append] at hl ⊢; omega), if_pos (by omega)]
          have e1 : min p.contentLength (ch :: (tl ++ b)).length = p.contentLength := by
            simp only [List.length_cons, List.length_append] at hl ⊢; omega
          have e2 : min p.contentLength (ch :: tl).length = p.contentLength := by omega
          dsimp only
          rw [e1, e2, ← List.cons_append, List.take_append_of_le_length (by omega), List.drop_append_of_le_length (by simp only [List.length_cons] at hl ⊢; omega)]
          refine execLoop_append hL _ _ _ _ _ _ (adv_ok ?_ _) he ?_
          · obtain ⟨o, rfl⟩ := marks_body hm (by simp [hs])
            exact mok_body (by simp) _
          · have := hg.noBad
            have h2 := hg.chunk (by simp [hs])
            constructor <;> simp_all
      · exact hinside (Or.inr (Or.inr hs))
    · obtain ⟨s1, s2, s3⟩ := mem_body_states hb
      rw [List.cons_append, execLoop_cons, execLoop_cons]
      rw [← (counted_facts p).1] at s1 s2 s3
      split
      · unfold andThen
        rw [if_neg (by simp)]
        exact Agree.refl hL _
      · rw [switch_rest (ch :: (tl ++ b)) (ch :: tl) s1 s2 s3]
        have ho := switch_one (cb := cb) (s := s) (m := m) (ch := ch) (rest := ch :: tl) s1 s2 s3
        have hr := switch_good hL.tame (s := s) (m := m) (ch := ch) (tl := tl) hc hce
        have hk := switch_marks_all hL (s := s) (m := m) (ch := ch) (rest := ch :: tl) hcm hce hc
        revert ho hr hk
        cases switch cb (counted p) s m ch (ch :: tl) with
        | ret p1 s1 n1 =>
          intro _ hr _
          unfold andThen
          rw [if_neg hr.1]
          exact Agree.refl hL _
        | go p1 s1 m1 n1 =>
          intro ho hr hk
          cases ho
          exact execLoop_append hL tl b _ _ _ _ (adv_ok hk _) hr.2.1 hr.1
termination_by a => a.length
decreasing_by all_goals (simp; try omega)

/-- `http_parser_execute` on two segments. -/
theorem execute_append (hL : Laws cb F V B Rel) {p : HParser} (hg : Good 0 p) (s : σ) {a b : Bytes} (ha : a ≠ []) (hb : b ≠ []) :
    Agree Rel (execute cb p s (a ++ b)) (if (execute cb p s a).1.errno = .ok then
      let x := execute cb p s a
      let y := execute cb x.1 x.2.1 b
      (y.1, y.2.1, x.2.2 + y.2.2) else execute cb p s a) := by
  obtain ⟨c, t, rfl⟩ := List.exists_cons_of_ne_nil ha
  obtain ⟨c', t', rfl⟩ := List.exists_cons_of_ne_nil hb
  by_cases he : p.errno = .ok
  · have h1 : ∀ (q : HParser) (z : σ) (d : Byte) (u : Bytes), q.errno = .ok → execute cb q z (d :: u) = execLoop cb q z (fresh q) (d :: u) 0 := by
      intro q z d u hq
      unfold execute fresh
      rw [if_neg (by simp [hq])]
    rw [List.cons_append, h1 _ _ _ _ he, h1 _ _ _ _ he, ← List.cons_append]
    have h := execLoop_append hL (c :: t) (c' :: t') p s (fresh p) 0 (fresh_ok p) he hg
    generalize execLoop cb p s (fresh p) (c :: t) 0 = x at h ⊢
    unfold andThen at h
    by_cases hx : x.1.errno = .ok
    · rw [if_pos hx] at h ⊢
      dsimp only
      rw [h1 _ _ _ _ hx]
      exact h
    · rw [if_neg hx] at h ⊢
      exact h
  · have h1 : ∀ d : Bytes, execute cb p s d = (p, s, 0) := by
      intro d
      unfold execute
      rw [if_pos he]
    rw [h1, h1, if_neg he]
    exact Agree.refl hL _

end
end Pillow
