import Verif.Lemmas.ParserRel
/-!
# How the parser stops

A callback that pauses the parser ends `execute`, and the parser is left exactly as the callback has left it.
-/
namespace Pillow
variable {σ : Type}

/-- An invariant `I` that holds as long as no callback pauses the parser, and what is known, `Q`, when one has. -/
structure Halts (cb : CB σ) (I : σ → Prop) (Q : HParser → σ → Prop) : Prop where
  keep : ∀ c p s, p.errno = .ok → I s → (cb c p s).1.errno = .ok → I (cb c p s).2
  stop : ∀ c p s, p.errno = .ok → I s → (cb c p s).1.errno ≠ .ok → Q (cb c p s).1 (cb c p s).2

def ResH (I : σ → Prop) (Q : HParser → σ → Prop) : Res σ → Prop
  | .go p s _ _ => p.errno = .ok ∧ I s
  | .ret p s _ => I s ∨ Q p s

section
variable {cb : CB σ} {I : σ → Prop} {Q : HParser → σ → Prop} (hb : Halts cb I Q)

theorem halt_go {p : HParser} {s : σ} {m : Marks} {n : Nat} (he : p.errno = .ok) (hi : I s) : ResH I Q (.go p s m n) := ⟨he, hi⟩

theorem halt_fail {p : HParser} {s : σ} {x : Errno} (hi : I s) : ResH I Q (fail p s x) := Or.inl hi

include hb

theorem halt_any {c : Cb} {p : HParser} {s : σ} (he : p.errno = .ok) (hi : I s) : I (cb c p s).2 ∨ Q (cb c p s).1 (cb c p s).2 := by
  by_cases hp : (cb c p s).1.errno = .ok
  · exact Or.inl (hb.keep c p s he hi hp)
  · exact Or.inr (hb.stop c p s he hi hp)

theorem halt_cb {c : Cb} {p : HParser} {s : σ} {n : Nat} {f : HParser → σ → Res σ} (he : p.errno = .ok) (hi : I s) (hf : ∀ q s, q.errno = .ok → I s → ResH I Q (f q s)) :
    ResH I Q (if (cb c p s).1.errno ≠ .ok then .ret (cb c p s).1 (cb c p s).2 n else f (cb c p s).1 (cb c p s).2) := by
  by_cases hp : (cb c p s).1.errno = .ok
  · rw [if_neg (by simp [hp])]
    exact hf _ _ hp (hb.keep c p s he hi hp)
  · rw [if_pos hp]
    exact Or.inr (hb.stop c p s he hi hp)

theorem halt_notify {c : Cb} {p : HParser} {s : σ} {m : Marks} (he : p.errno = .ok) (hi : I s) : ResH I Q (notify cb c p s m) := by
  unfold notify
  exact halt_cb hb (f := fun q s => .go q s m 1) ((assert_errno _ _).trans he) hi fun q s hq hi => ⟨hq, hi⟩

theorem halt_dataField {p : HParser} {s : σ} {m : Marks} (he : p.errno = .ok) (hi : I s) : ResH I Q (dataField cb p s m) := by
  unfold dataField
  split
  · exact ⟨he, hi⟩
  · exact halt_cb hb (f := fun q s => .go q s { m with field := none } 1) ((assert_errno _ _).trans he) hi fun q s hq hi => ⟨hq, hi⟩

theorem halt_dataValue {p : HParser} {s : σ} {m : Marks} (he : p.errno = .ok) (hi : I s) : ResH I Q (dataValue cb p s m) := by
  unfold dataValue
  split
  · exact ⟨he, hi⟩
  · exact halt_cb hb (f := fun q s => .go q s { m with value := none } 1) ((assert_errno _ _).trans he) hi fun q s hq hi => ⟨hq, hi⟩

theorem halt_dataBody {p : HParser} {s : σ} {m : Marks} (he : p.errno = .ok) (hi : I s) : ResH I Q (dataBody cb p s m) := by
  unfold dataBody
  split
  · exact ⟨he, hi⟩
  · exact halt_cb hb (f := fun q s => .go q s { m with body := none } 1) ((assert_errno _ _).trans he) hi fun q s hq hi => ⟨hq, hi⟩

theorem halt_headersDone {p : HParser} {s : σ} {m : Marks} {ch : Byte} (he : p.errno = .ok) (hi : I s) : ResH I Q (doHeadersDone cb p s m ch) := by
  unfold doHeadersDone
  split
  · exact halt_fail hi
  · dsimp only
    split
    · exact halt_any hb ((assert_errno _ _).trans (by exact he)) hi
    · repeat' split
      all_goals first | exact halt_notify hb (by exact he) hi | exact ⟨by exact he, hi⟩

theorem halt_headersAlmostDone {p : HParser} {s : σ} {m : Marks} {ch : Byte} (he : p.errno = .ok) (hi : I s) : ResH I Q (doHeadersAlmostDone cb p s m ch) := by
  unfold doHeadersAlmostDone
  split
  · exact halt_fail hi
  · dsimp only
    split
    · exact halt_notify hb (by exact he) hi
    · exact halt_cb hb (f := fun q s => doHeadersDone cb q s m ch) (by exact he) hi fun q s hq hi => halt_headersDone hb hq hi

theorem halt_fieldStart {p : HParser} {s : σ} {m : Marks} {ch : Byte} (he : p.errno = .ok) (hi : I s) : ResH I Q (doFieldStart cb p s m ch) := by
  unfold doFieldStart; dsimp only
  split
  · exact ⟨by exact he, hi⟩
  · split
    · exact halt_headersAlmostDone hb (by exact he) hi
    · split
      · exact halt_fail hi
      · exact ⟨by exact he, hi⟩

omit hb in
theorem halt_almostDone {p : HParser} {s : σ} {m : Marks} {ch : Byte} (he : p.errno = .ok) (hi : I s) : ResH I Q (doAlmostDone p s m ch) := by
  unfold doAlmostDone; dsimp only
  repeat' split
  all_goals first | exact halt_fail hi | exact ⟨by exact he, hi⟩

theorem halt_field {p : HParser} {s : σ} {m : Marks} {ch : Byte} (he : p.errno = .ok) (hi : I s) : ResH I Q (doField cb p s m ch) := by
  unfold doField; dsimp only
  repeat' split
  all_goals first | exact halt_fail hi | exact halt_dataField hb (by exact he) hi | exact ⟨(fieldChar_errno _ _ _).trans he, hi⟩

theorem halt_valueStart {p : HParser} {s : σ} {m : Marks} {ch : Byte} (he : p.errno = .ok) (hi : I s) : ResH I Q (doValueStart cb p s m ch) := by
  unfold doValueStart; dsimp only
  repeat' split
  all_goals first | exact halt_fail hi | exact halt_dataValue hb (by exact he) hi | exact ⟨by exact he, hi⟩

theorem halt_value {p : HParser} {s : σ} {m : Marks} {ch : Byte} (he : p.errno = .ok) (hi : I s) : ResH I Q (doValue cb p s m ch) := by
  unfold doValue; dsimp only
  split
  · exact halt_dataValue hb (by exact he) hi
  · split
    · split
      · exact halt_almostDone (by exact he) hi
      · exact halt_cb hb (f := fun q s => doAlmostDone q s { m with value := none } ch) ((assert_errno _ _).trans (by exact he)) hi fun q s hq hi => halt_almostDone hq hi
    · split
      · exact halt_fail hi
      · rename_i hq
        exact ⟨(valueChar_errno hq).trans he, hi⟩

theorem halt_identity {p : HParser} {s : σ} {m : Marks} {rest : Bytes} (he : p.errno = .ok) (hi : I s) : ResH I Q (doBodyIdentity cb p s m rest) := by
  unfold doBodyIdentity; dsimp only
  generalize hp1 : HParser.assert p _ = p1
  have e1 : p1.errno = .ok := by rw [← hp1, assert_errno]; exact he
  split
  · exact halt_cb hb (f := fun q s => if (cb .messageComplete (HParser.assert { q with state := q.newMessage } (q.errno == .ok)) s).1.errno ≠ .ok then
        .ret (cb .messageComplete (HParser.assert { q with state := q.newMessage } (q.errno == .ok)) s).1 (cb .messageComplete (HParser.assert { q with state := q.newMessage } (q.errno == .ok)) s).2 _
      else .go (cb .messageComplete (HParser.assert { q with state := q.newMessage } (q.errno == .ok)) s).1 (cb .messageComplete (HParser.assert { q with state := q.newMessage } (q.errno == .ok)) s).2 _ _)
      ((assert_errno _ _).trans (by exact e1)) hi fun q s hq hi => halt_cb hb (f := fun q s => .go q s _ _) ((assert_errno _ _).trans (by exact hq)) hi fun q s hq hi => ⟨hq, hi⟩
  · exact ⟨by exact e1, hi⟩

omit hb in
theorem halt_chunk {p : HParser} {s : σ} {m : Marks} {rest : Bytes} (he : p.errno = .ok) (hi : I s) : ResH I Q (doChunkData p s m rest) := by
  unfold doChunkData; dsimp only
  generalize hp1 : HParser.assert p _ = p1
  have e1 : p1.errno = .ok := by rw [← hp1, assert_errno]; exact he
  refine ⟨?_, hi⟩
  split <;> exact e1

theorem halt_switch {p : HParser} {s : σ} {m : Marks} {ch : Byte} {rest : Bytes} (he : p.errno = .ok) (hi : I s) : ResH I Q (switch cb p s m ch rest) := by
  unfold switch
  split <;> (try dsimp only)
  all_goals first
    | exact halt_fieldStart hb he hi
    | exact halt_field hb he hi
    | exact halt_valueStart hb he hi
    | exact halt_value hb he hi
    | exact halt_almostDone he hi
    | exact halt_headersAlmostDone hb he hi
    | exact halt_headersDone hb he hi
    | exact halt_identity hb he hi
    | exact halt_chunk he hi
    | skip
  all_goals (have hA : ∀ b, (p.assert b).errno = .ok := fun b => (assert_errno p b).trans he)
  all_goals (repeat' split)
  all_goals first
    | exact halt_fail hi
    | exact halt_notify hb (by exact he) hi
    | exact ⟨by exact he, hi⟩
    | exact ⟨hA _, hi⟩
    | exact halt_dataBody hb (hA _) hi
    | exact halt_fieldStart hb (by exact he) hi
    | (rename_i hq; exact ⟨(addDigit_errno hq).trans (hA _), hi⟩)

theorem halt_opt (o : Option Cb) {q : HParser} {s : σ} (hq : q.errno = .ok) (hi : I s) :
    ((optCb cb o (q, s)).1.errno = .ok → I (optCb cb o (q, s)).2) ∧ (I (optCb cb o (q, s)).2 ∨ Q (optCb cb o (q, s)).1 (optCb cb o (q, s)).2) := by
  cases o with
  | none => exact ⟨fun _ => hi, Or.inl hi⟩
  | some c => exact ⟨hb.keep c _ s ((assert_errno _ _).trans hq) hi, halt_any hb ((assert_errno _ _).trans hq) hi⟩

theorem halt_leftover {p : HParser} {s : σ} {m : Marks} (he : p.errno = .ok) (hi : I s) : I (leftover cb p s m).2 ∨ Q (leftover cb p s m).1 (leftover cb p s m).2 := by
  rw [leftover_opt cb p s m _ rfl]
  have h1 := halt_opt hb (m.field.map .field) ((assert_errno p (oneMark m)).trans he) hi
  generalize optCb cb (m.field.map .field) (p.assert (oneMark m), s) = x at h1 ⊢
  obtain ⟨q1, s1⟩ := x
  by_cases hq1 : q1.errno = .ok
  · have hn1 : ¬ q1.errno ≠ .ok := fun h => h hq1
    simp only [if_neg hn1]
    have h2 := halt_opt hb (m.value.map .value) hq1 (h1.1 hq1)
    generalize optCb cb (m.value.map .value) (q1, s1) = x at h2 ⊢
    obtain ⟨q2, s2⟩ := x
    by_cases hq2 : q2.errno = .ok
    · have hn2 : ¬ q2.errno ≠ .ok := fun h => h hq2
      simp only [if_neg hn2]
      exact (halt_opt hb (m.body.map .body) hq2 (h2.1 hq2)).2
    · have hn2 : q2.errno ≠ .ok := hq2
      simp only [if_pos hn2]
      exact h2.2
  · have hn1 : q1.errno ≠ .ok := hq1
    simp only [if_pos hn1]
    exact h1.2

theorem halt_execLoop : ∀ (data : Bytes) (p : HParser) (s : σ) (m : Marks) (pos : Nat), p.errno = .ok → I s →
    I (execLoop cb p s m data pos).2.1 ∨ Q (execLoop cb p s m data pos).1 (execLoop cb p s m data pos).2.1
  | [], p, s, m, pos, he, hi => by
    unfold execLoop
    exact halt_leftover hb he hi
  | ch :: tl, p, s, m, pos, he, hi => by
    rw [execLoop_cons]
    have hce : (counted p).errno = .ok := (counted_facts p).2.trans he
    generalize counted p = q at hce ⊢
    split
    · exact Or.inl hi
    · have hs := halt_switch hb (m := m) (ch := ch) (rest := ch :: tl) hce hi
      revert hs
      cases switch cb q s m ch (ch :: tl) with
      | ret p1 s1 n1 => exact id
      | go p1 s1 m1 n1 =>
        rintro ⟨h4, h5⟩
        exact halt_execLoop _ _ _ _ _ h4 h5
termination_by data => data.length
decreasing_by all_goals (simp; try omega)

theorem halt_execute {p : HParser} {s : σ} (data : Bytes) (hi : I s) : I (execute cb p s data).2.1 ∨ Q (execute cb p s data).1 (execute cb p s data).2.1 := by
  unfold execute
  by_cases he : p.errno = .ok
  · have hn : ¬ p.errno ≠ .ok := fun h => h he
    simp only [if_neg hn]
    cases data with
    | nil =>
      dsimp only
      split
      · exact halt_any hb he hi
      · exact Or.inl hi
      · exact Or.inl hi
      · exact Or.inl hi
    | cons c tl => exact halt_execLoop hb _ _ _ _ _ he hi
  · simp only [if_pos he]
    exact Or.inl hi

end

end Pillow
