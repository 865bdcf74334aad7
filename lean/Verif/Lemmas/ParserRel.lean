import Verif.Lemmas.ParserSeg
/-!
# Two programs that drive the parser in the same way

If the callbacks of two programs keep related states related and do the same to the parser, so does `http_parser_execute`.  `Rok` holds
while the parser goes on, `Rany` also when a callback has paused it.
-/
namespace Pillow
variable {σ τ : Type}

/-- The callbacks of two programs correspond. -/
def CbRel (cb : CB σ) (cb' : CB τ) (Rok Rany : σ → τ → Prop) : Prop :=
  ∀ c p s t, p.errno = .ok → Rok s t → (cb c p s).1 = (cb' c p t).1 ∧ Rany (cb c p s).2 (cb' c p t).2 ∧
    ((cb c p s).1.errno ≠ .paused → (cb c p s).1.errno = .ok ∧ Rok (cb c p s).2 (cb' c p t).2)

def ResRel (Rok Rany : σ → τ → Prop) : Res σ → Res τ → Prop
  | .go p s m n, .go p' t m' n' => p = p' ∧ m = m' ∧ n = n' ∧ p.errno = .ok ∧ Rok s t
  | .ret p s n, .ret p' t n' => p = p' ∧ n = n' ∧ Rany s t ∧ (p.errno ≠ .paused → Rok s t)
  | _, _ => False

section
variable {cb : CB σ} {cb' : CB τ} {Rok Rany : σ → τ → Prop}

theorem rel_go {p : HParser} {s : σ} {t : τ} {m : Marks} {n : Nat} (he : p.errno = .ok) (hr : Rok s t) :
    ResRel Rok Rany (.go p s m n) (.go p t m n) := ⟨rfl, rfl, rfl, he, hr⟩

theorem rel_fail (ha : ∀ s t, Rok s t → Rany s t) {p : HParser} {s : σ} {t : τ} {e : Errno} (hr : Rok s t) :
    ResRel Rok Rany (fail p s e) (fail p t e) := ⟨rfl, rfl, ha _ _ hr, fun _ => hr⟩

/-- A callback and what follows. -/
theorem rel_cb (h : CbRel cb cb' Rok Rany) {c : Cb} {p : HParser} {s : σ} {t : τ} {n : Nat} {k : HParser → σ → Res σ} {k' : HParser → τ → Res τ}
    (he : p.errno = .ok) (hr : Rok s t) (hk : ∀ q s t, q.errno = .ok → Rok s t → ResRel Rok Rany (k q s) (k' q t)) :
    ResRel Rok Rany (if (cb c p s).1.errno ≠ .ok then .ret (cb c p s).1 (cb c p s).2 n else k (cb c p s).1 (cb c p s).2)
      (if (cb' c p t).1.errno ≠ .ok then .ret (cb' c p t).1 (cb' c p t).2 n else k' (cb' c p t).1 (cb' c p t).2) := by
  obtain ⟨h1, h2, h3⟩ := h c p s t he hr
  rw [← h1]
  by_cases hp : (cb c p s).1.errno = .ok
  · rw [if_neg (by simp [hp]), if_neg (by simp [hp])]
    exact hk _ _ _ hp (h3 (by rw [hp]; simp)).2
  · rw [if_pos hp, if_pos hp]
    refine ⟨rfl, rfl, h2, fun hn => absurd (h3 hn).1 hp⟩

theorem assert_errno (p : HParser) (b : Bool) : (p.assert b).errno = p.errno := by unfold HParser.assert; split <;> rfl

theorem rel_notify (h : CbRel cb cb' Rok Rany) {c : Cb} {p : HParser} {s : σ} {t : τ} {m : Marks} (he : p.errno = .ok) (hr : Rok s t) :
    ResRel Rok Rany (notify cb c p s m) (notify cb' c p t m) := by
  unfold notify
  exact rel_cb h (k := fun q s => .go q s m 1) (k' := fun q t => .go q t m 1) ((assert_errno _ _).trans he) hr fun q s t hq hr => rel_go hq hr

theorem rel_dataField (h : CbRel cb cb' Rok Rany) {p : HParser} {s : σ} {t : τ} {m : Marks} (he : p.errno = .ok) (hr : Rok s t) :
    ResRel Rok Rany (dataField cb p s m) (dataField cb' p t m) := by
  unfold dataField
  split
  · exact rel_go he hr
  · exact rel_cb h (k := fun q s => .go q s { m with field := none } 1) (k' := fun q t => .go q t { m with field := none } 1)
      ((assert_errno _ _).trans he) hr fun q s t hq hr => rel_go hq hr

theorem rel_dataValue (h : CbRel cb cb' Rok Rany) {p : HParser} {s : σ} {t : τ} {m : Marks} (he : p.errno = .ok) (hr : Rok s t) :
    ResRel Rok Rany (dataValue cb p s m) (dataValue cb' p t m) := by
  unfold dataValue
  split
  · exact rel_go he hr
  · exact rel_cb h (k := fun q s => .go q s { m with value := none } 1) (k' := fun q t => .go q t { m with value := none } 1)
      ((assert_errno _ _).trans he) hr fun q s t hq hr => rel_go hq hr

theorem rel_dataBody (h : CbRel cb cb' Rok Rany) {p : HParser} {s : σ} {t : τ} {m : Marks} (he : p.errno = .ok) (hr : Rok s t) :
    ResRel Rok Rany (dataBody cb p s m) (dataBody cb' p t m) := by
  unfold dataBody
  split
  · exact rel_go he hr
  · exact rel_cb h (k := fun q s => .go q s { m with body := none } 1) (k' := fun q t => .go q t { m with body := none } 1)
      ((assert_errno _ _).trans he) hr fun q s t hq hr => rel_go hq hr

theorem rel_headersDone (h : CbRel cb cb' Rok Rany) (ha : ∀ s t, Rok s t → Rany s t) {p : HParser} {s : σ} {t : τ} {m : Marks} {ch : Byte} (he : p.errno = .ok) (hr : Rok s t) :
    ResRel Rok Rany (doHeadersDone cb p s m ch) (doHeadersDone cb' p t m ch) := by
  unfold doHeadersDone
  split
  · exact rel_fail ha hr
  · dsimp only
    split
    · generalize hq : HParser.assert _ _ = q
      have hqe : q.errno = .ok := by rw [← hq, assert_errno]; exact he
      obtain ⟨h1, h2, h3⟩ := h .messageComplete q s t hqe hr
      exact ⟨h1, rfl, h2, fun hn => (h3 hn).2⟩
    · repeat' split
      all_goals first | exact rel_notify h (by exact he) hr | exact rel_go (by exact he) hr

theorem rel_headersAlmostDone (h : CbRel cb cb' Rok Rany) (ha : ∀ s t, Rok s t → Rany s t) {p : HParser} {s : σ} {t : τ} {m : Marks} {ch : Byte} (he : p.errno = .ok) (hr : Rok s t) :
    ResRel Rok Rany (doHeadersAlmostDone cb p s m ch) (doHeadersAlmostDone cb' p t m ch) := by
  unfold doHeadersAlmostDone
  split
  · exact rel_fail ha hr
  · dsimp only
    split
    · exact rel_notify h (by exact he) hr
    · exact rel_cb h (k := fun q s => doHeadersDone cb q s m ch) (k' := fun q t => doHeadersDone cb' q t m ch) (by exact he) hr
        fun q s t hq hr => rel_headersDone h ha hq hr

theorem rel_fieldStart (h : CbRel cb cb' Rok Rany) (ha : ∀ s t, Rok s t → Rany s t) {p : HParser} {s : σ} {t : τ} {m : Marks} {ch : Byte} (he : p.errno = .ok) (hr : Rok s t) :
    ResRel Rok Rany (doFieldStart cb p s m ch) (doFieldStart cb' p t m ch) := by
  unfold doFieldStart; dsimp only
  split
  · exact rel_go (by exact he) hr
  · split
    · exact rel_headersAlmostDone h ha (by exact he) hr
    · split
      · exact rel_fail ha hr
      · exact rel_go (by exact he) hr

theorem rel_almostDone (ha : ∀ s t, Rok s t → Rany s t) {p : HParser} {s : σ} {t : τ} {m : Marks} {ch : Byte} (he : p.errno = .ok) (hr : Rok s t) :
    ResRel Rok Rany (doAlmostDone p s m ch) (doAlmostDone p t m ch) := by
  unfold doAlmostDone; dsimp only
  repeat' split
  all_goals first | exact rel_fail ha hr | exact rel_go (by exact he) hr

theorem matchStep_errno (name : Bytes) (f : HState) (p : HParser) (c : Byte) : (matchStep name f p c).errno = p.errno := by
  unfold matchStep; dsimp only
  repeat' split
  all_goals rfl

theorem fieldChar_errno (p : HParser) (c ch : Byte) : (fieldChar p c ch).errno = p.errno := by
  unfold fieldChar
  split
  all_goals first | rfl | exact matchStep_errno _ _ _ _ | (split <;> rfl)

theorem valueChar_errno {p q : HParser} {c ch : Byte} (h : valueChar p c ch = some q) : q.errno = p.errno := by
  unfold valueChar addDigit at h
  dsimp only at h
  split at h
  all_goals (repeat' split at h)
  all_goals first
    | (cases h; rfl)
    | (cases h; exact matchStep_errno _ _ _ _)
    | (cases h; done)

theorem rel_field (h : CbRel cb cb' Rok Rany) (ha : ∀ s t, Rok s t → Rany s t) {p : HParser} {s : σ} {t : τ} {m : Marks} {ch : Byte} (he : p.errno = .ok) (hr : Rok s t) :
    ResRel Rok Rany (doField cb p s m ch) (doField cb' p t m ch) := by
  unfold doField; dsimp only
  repeat' split
  all_goals first | exact rel_fail ha hr | exact rel_dataField h (by exact he) hr | exact rel_go ((fieldChar_errno _ _ _).trans he) hr

theorem rel_valueStart (h : CbRel cb cb' Rok Rany) (ha : ∀ s t, Rok s t → Rany s t) {p : HParser} {s : σ} {t : τ} {m : Marks} {ch : Byte} (he : p.errno = .ok) (hr : Rok s t) :
    ResRel Rok Rany (doValueStart cb p s m ch) (doValueStart cb' p t m ch) := by
  unfold doValueStart; dsimp only
  repeat' split
  all_goals first | exact rel_fail ha hr | exact rel_dataValue h (by exact he) hr | exact rel_go (by exact he) hr

theorem rel_value (h : CbRel cb cb' Rok Rany) (ha : ∀ s t, Rok s t → Rany s t) {p : HParser} {s : σ} {t : τ} {m : Marks} {ch : Byte} (he : p.errno = .ok) (hr : Rok s t) :
    ResRel Rok Rany (doValue cb p s m ch) (doValue cb' p t m ch) := by
  unfold doValue; dsimp only
  split
  · exact rel_dataValue h (by exact he) hr
  · split
    · split
      · exact rel_almostDone ha (by exact he) hr
      · exact rel_cb h (k := fun q s => doAlmostDone q s { m with value := none } ch) (k' := fun q t => doAlmostDone q t { m with value := none } ch)
          ((assert_errno _ _).trans (by exact he)) hr fun q s t hq hr => rel_almostDone ha hq hr
    · split
      · exact rel_fail ha hr
      · rename_i hq
        exact rel_go ((valueChar_errno hq).trans he) hr

theorem rel_identity (h : CbRel cb cb' Rok Rany) {p : HParser} {s : σ} {t : τ} {m : Marks} {rest : Bytes} (he : p.errno = .ok) (hr : Rok s t) :
    ResRel Rok Rany (doBodyIdentity cb p s m rest) (doBodyIdentity cb' p t m rest) := by
  unfold doBodyIdentity; dsimp only
  generalize hp1 : HParser.assert p _ = p1
  have e1 : p1.errno = .ok := by rw [← hp1, assert_errno]; exact he
  split
  · exact rel_cb h (k := fun q s => if (cb .messageComplete (HParser.assert { q with state := q.newMessage } (q.errno == .ok)) s).1.errno ≠ .ok
        then .ret (cb .messageComplete (HParser.assert { q with state := q.newMessage } (q.errno == .ok)) s).1 (cb .messageComplete (HParser.assert { q with state := q.newMessage } (q.errno == .ok)) s).2 (min p.contentLength rest.length)
        else .go (cb .messageComplete (HParser.assert { q with state := q.newMessage } (q.errno == .ok)) s).1 (cb .messageComplete (HParser.assert { q with state := q.newMessage } (q.errno == .ok)) s).2 { m with body := none } (min p.contentLength rest.length))
      (k' := fun q t => if (cb' .messageComplete (HParser.assert { q with state := q.newMessage } (q.errno == .ok)) t).1.errno ≠ .ok
        then .ret (cb' .messageComplete (HParser.assert { q with state := q.newMessage } (q.errno == .ok)) t).1 (cb' .messageComplete (HParser.assert { q with state := q.newMessage } (q.errno == .ok)) t).2 (min p.contentLength rest.length)
        else .go (cb' .messageComplete (HParser.assert { q with state := q.newMessage } (q.errno == .ok)) t).1 (cb' .messageComplete (HParser.assert { q with state := q.newMessage } (q.errno == .ok)) t).2 { m with body := none } (min p.contentLength rest.length))
      ((assert_errno _ _).trans (by exact e1)) hr fun q s t hq hr =>
        rel_cb h (k := fun q s => .go q s { m with body := none } (min p.contentLength rest.length))
          (k' := fun q t => .go q t { m with body := none } (min p.contentLength rest.length)) ((assert_errno _ _).trans (by exact hq)) hr fun q s t hq hr => rel_go hq hr
  · exact rel_go (by exact e1) hr

theorem rel_chunk {p : HParser} {s : σ} {t : τ} {m : Marks} {rest : Bytes} (he : p.errno = .ok) (hr : Rok s t) :
    ResRel Rok Rany (doChunkData p s m rest) (doChunkData p t m rest) := by
  unfold doChunkData; dsimp only
  generalize hp1 : HParser.assert p _ = p1
  have e1 : p1.errno = .ok := by rw [← hp1, assert_errno]; exact he
  refine rel_go ?_ hr
  split <;> exact e1

theorem addDigit_errno {p q : HParser} {a b : Nat} (h : addDigit p a b = some q) : q.errno = p.errno := by
  unfold addDigit at h
  dsimp only at h
  split at h
  · cases h
  · cases h; rfl

theorem rel_switch (h : CbRel cb cb' Rok Rany) (ha : ∀ s t, Rok s t → Rany s t) {p : HParser} {s : σ} {t : τ} {m : Marks} {ch : Byte} {rest : Bytes} (he : p.errno = .ok)
    (hr : Rok s t) : ResRel Rok Rany (switch cb p s m ch rest) (switch cb' p t m ch rest) := by
  unfold switch
  split <;> (try dsimp only)
  all_goals first
    | exact rel_fieldStart h ha he hr
    | exact rel_field h ha he hr
    | exact rel_valueStart h ha he hr
    | exact rel_value h ha he hr
    | exact rel_almostDone ha he hr
    | exact rel_headersAlmostDone h ha he hr
    | exact rel_headersDone h ha he hr
    | exact rel_identity h he hr
    | exact rel_chunk he hr
    | skip
  all_goals (have hA : ∀ b, (p.assert b).errno = .ok := fun b => (assert_errno p b).trans he)
  all_goals (repeat' split)
  all_goals first
    | exact rel_fail ha hr
    | exact rel_notify h (by exact he) hr
    | exact rel_go (by exact he) hr
    | exact rel_go (hA _) hr
    | exact rel_dataBody h (hA _) hr
    | exact rel_fieldStart h ha (by exact he) hr
    | (rename_i hq; exact rel_go ((addDigit_errno hq).trans (hA _)) hr)

/-- The results of two executions. -/
structure ExecRel (Rok Rany : σ → τ → Prop) (x : HParser × σ × Nat) (y : HParser × τ × Nat) : Prop where
  parser : x.1 = y.1
  consumed : x.2.2 = y.2.2
  any : Rany x.2.1 y.2.1
  ok : x.1.errno ≠ .paused → Rok x.2.1 y.2.1

/-- A callback that may be absent. -/
def optCb {σ : Type} (cb : CB σ) : Option Cb → HParser × σ → HParser × σ
  | none, x => x
  | some c, x => cb c (x.1.assert (x.1.errno == Errno.ok)) x.2

/-- The marks of which at most one can be set. -/
def oneMark (m : Marks) : Bool := (if m.field.isSome then 1 else 0) + (if m.value.isSome then 1 else 0) + (if m.body.isSome then 1 else 0) ≤ 1

theorem leftover_opt {σ : Type} (cb : CB σ) (p : HParser) (s : σ) (m : Marks) (b : Bool) (hb : b = oneMark m) : leftover cb p s m =
    (if (optCb cb (m.field.map .field) (p.assert b, s)).1.errno ≠ .ok then optCb cb (m.field.map .field) (p.assert b, s)
     else if (optCb cb (m.value.map .value) (optCb cb (m.field.map .field) (p.assert b, s))).1.errno ≠ .ok then
      optCb cb (m.value.map .value) (optCb cb (m.field.map .field) (p.assert b, s))
     else optCb cb (m.body.map .body) (optCb cb (m.value.map .value) (optCb cb (m.field.map .field) (p.assert b, s)))) := by
  subst hb
  obtain ⟨f, v, b⟩ := m
  unfold leftover
  cases f <;> cases v <;> cases b <;> rfl

theorem rel_opt (h : CbRel cb cb' Rok Rany) (ha : ∀ s t, Rok s t → Rany s t) (o : Option Cb) {q : HParser} {s : σ} {t : τ} (hq : q.errno = .ok) (hr : Rok s t) :
    (optCb cb o (q, s)).1 = (optCb cb' o (q, t)).1 ∧ Rany (optCb cb o (q, s)).2 (optCb cb' o (q, t)).2 ∧
    ((optCb cb o (q, s)).1.errno ≠ .paused → (optCb cb o (q, s)).1.errno = .ok ∧ Rok (optCb cb o (q, s)).2 (optCb cb' o (q, t)).2) := by
  cases o with
  | none => exact ⟨rfl, ha _ _ hr, fun _ => ⟨hq, hr⟩⟩
  | some c => exact h c (q.assert (q.errno == .ok)) s t ((assert_errno _ _).trans hq) hr

theorem rel_leftover (h : CbRel cb cb' Rok Rany) (ha : ∀ s t, Rok s t → Rany s t) {p : HParser} {s : σ} {t : τ} {m : Marks} {n : Nat} (he : p.errno = .ok) (hr : Rok s t) :
    ExecRel Rok Rany ((leftover cb p s m).1, (leftover cb p s m).2, n) ((leftover cb' p t m).1, (leftover cb' p t m).2, n) := by
  have key : ∀ x : HParser × σ, ∀ y : HParser × τ, x.1 = y.1 ∧ Rany x.2 y.2 ∧ (x.1.errno ≠ .paused → x.1.errno = .ok ∧ Rok x.2 y.2) →
      ExecRel Rok Rany (x.1, x.2, n) (y.1, y.2, n) := fun x y ⟨h1, h2, h3⟩ => ⟨h1, rfl, h2, fun hn => (h3 hn).2⟩
  rw [leftover_opt cb p s m _ rfl, leftover_opt cb' p t m _ rfl]
  have h1 := rel_opt h ha (m.field.map .field) ((assert_errno p (oneMark m)).trans he) hr
  revert h1
  generalize optCb cb (m.field.map .field) (p.assert (oneMark m), s) = x
  generalize optCb cb' (m.field.map .field) (p.assert (oneMark m), t) = y
  intro h1
  obtain ⟨q1, s1⟩ := x
  obtain ⟨q1', t1⟩ := y
  obtain rfl : q1 = q1' := h1.1
  by_cases hq1 : q1.errno = .ok
  · have hn1 : ¬ q1.errno ≠ .ok := fun h => h hq1
    simp only [if_neg hn1]
    have h2 := rel_opt h ha (m.value.map .value) hq1 (h1.2.2 (by rw [hq1]; simp)).2
    revert h2
    generalize optCb cb (m.value.map .value) (q1, s1) = x
    generalize optCb cb' (m.value.map .value) (q1, t1) = y
    intro h2
    obtain ⟨q2, s2⟩ := x
    obtain ⟨q2', t2⟩ := y
    obtain rfl : q2 = q2' := h2.1
    by_cases hq2 : q2.errno = .ok
    · have hn2 : ¬ q2.errno ≠ .ok := fun h => h hq2
      simp only [if_neg hn2]
      exact key _ _ (rel_opt h ha (m.body.map .body) hq2 (h2.2.2 (by rw [hq2]; simp)).2)
    · have hn2 : q2.errno ≠ .ok := hq2
      simp only [if_pos hn2]
      exact key (q2, s2) (q2, t2) h2
  · have hn1 : q1.errno ≠ .ok := hq1
    simp only [if_pos hn1]
    exact key (q1, s1) (q1, t1) h1

theorem rel_execLoop (h : CbRel cb cb' Rok Rany) (ha : ∀ s t, Rok s t → Rany s t) : ∀ (data : Bytes) (p : HParser) (s : σ) (t : τ) (m : Marks) (pos : Nat), p.errno = .ok →
    Rok s t → ExecRel Rok Rany (execLoop cb p s m data pos) (execLoop cb' p t m data pos)
  | [], p, s, t, m, pos, he, hr => by
    unfold execLoop
    exact rel_leftover h ha he hr
  | ch :: tl, p, s, t, m, pos, he, hr => by
    rw [execLoop_cons, execLoop_cons]
    have hce : (counted p).errno = .ok := (counted_facts p).2.trans he
    generalize counted p = q at hce ⊢
    split
    · exact ⟨rfl, rfl, ha _ _ hr, fun _ => hr⟩
    · have hs := rel_switch h ha (m := m) (ch := ch) (rest := ch :: tl) hce hr
      revert hs
      cases switch cb q s m ch (ch :: tl) with
      | ret p1 s1 n1 =>
        cases switch cb' q t m ch (ch :: tl) with
        | ret p2 s2 n2 =>
          rintro ⟨rfl, rfl, h3, h4⟩
          exact ⟨rfl, rfl, h3, h4⟩
        | go => intro h; exact h.elim
      | go p1 s1 m1 n1 =>
        cases switch cb' q t m ch (ch :: tl) with
        | ret => intro h; exact h.elim
        | go p2 s2 m2 n2 =>
          rintro ⟨rfl, rfl, rfl, h4, h5⟩
          exact rel_execLoop h ha _ _ _ _ _ _ h4 h5
termination_by data => data.length
decreasing_by all_goals (simp; try omega)

theorem rel_execute (h : CbRel cb cb' Rok Rany) (ha : ∀ s t, Rok s t → Rany s t) {p : HParser} {s : σ} {t : τ} (hr : Rok s t) (data : Bytes) :
    ExecRel Rok Rany (execute cb p s data) (execute cb' p t data) := by
  unfold execute
  by_cases he : p.errno = .ok
  · have hn : ¬ p.errno ≠ .ok := fun h => h he
    simp only [if_neg hn]
    cases data with
    | nil =>
      dsimp only
      split
      · obtain ⟨h1, h2, h3⟩ := h .messageComplete p s t he hr
        exact ⟨h1, rfl, h2, fun hn => (h3 hn).2⟩
      · exact ⟨rfl, rfl, ha _ _ hr, fun _ => hr⟩
      · exact ⟨rfl, rfl, ha _ _ hr, fun _ => hr⟩
      · exact ⟨rfl, rfl, ha _ _ hr, fun _ => hr⟩
    | cons c tl => exact rel_execLoop h ha _ _ _ _ _ _ he hr
  · simp only [if_pos he]
    exact ⟨rfl, rfl, ha _ _ hr, fun _ => hr⟩

end

/-- The special case of an invariant of one program. -/
theorem inv_execute {cb : CB σ} {Iok Iany : σ → Prop} (ha : ∀ s, Iok s → Iany s)
    (h : ∀ c p s, p.errno = .ok → Iok s → Iany (cb c p s).2 ∧ ((cb c p s).1.errno ≠ .paused → (cb c p s).1.errno = .ok ∧ Iok (cb c p s).2))
    {p : HParser} {s : σ} (hs : Iok s) (data : Bytes) :
    Iany (execute cb p s data).2.1 ∧ ((execute cb p s data).1.errno ≠ .paused → Iok (execute cb p s data).2.1) := by
  have hr := rel_execute (cb := cb) (cb' := cb) (Rok := fun s t => s = t ∧ Iok s) (Rany := fun s t => s = t ∧ Iany s)
    (fun c p s t he ⟨e, hi⟩ => by
      subst e
      exact ⟨rfl, ⟨rfl, (h c p s he hi).1⟩, fun hn => ⟨((h c p s he hi).2 hn).1, rfl, ((h c p s he hi).2 hn).2⟩⟩)
    (fun s t ⟨e, hi⟩ => ⟨e, ha s hi⟩) (p := p) (s := s) (t := s) ⟨rfl, hs⟩ data
  exact ⟨hr.any.2, fun hn => (hr.ok hn).2⟩

end Pillow
