import Verif.Lemmas.ParserSeg
/-!
# No assertion of the response parser fails, whatever the callbacks do
-/
namespace Pillow
variable {σ : Type} {cb : CB σ}

theorem dataField_safe (ht : Tame cb) {p : HParser} {s : σ} {x : Bytes} (he : p.errno = .ok) (hs : p.state ≠ .field ∧ p.state ≠ .value) :
    ResMarks (dataField cb p s ⟨some x, none, none⟩) := by
  unfold dataField
  rw [assert_ok he]
  dsimp only
  rcases ht.tame (.field x) p s he with h | ⟨h, _⟩
  · rw [if_neg (by rw [h, he]; simp), h]; exact mok_none hs
  · rw [if_pos (by rw [h]; simp)]; trivial

theorem dataValue_safe (ht : Tame cb) {p : HParser} {s : σ} {x : Bytes} (he : p.errno = .ok) (hs : p.state ≠ .field ∧ p.state ≠ .value) :
    ResMarks (dataValue cb p s ⟨none, some x, none⟩) := by
  unfold dataValue
  rw [assert_ok he]
  dsimp only
  rcases ht.tame (.value x) p s he with h | ⟨h, _⟩
  · rw [if_neg (by rw [h, he]; simp), h]; exact mok_none hs
  · rw [if_pos (by rw [h]; simp)]; trivial

theorem dataBody_safe (ht : Tame cb) {p : HParser} {s : σ} {o : Option Bytes} (he : p.errno = .ok) (hs : p.state ≠ .field ∧ p.state ≠ .value) :
    ResMarks (dataBody cb p s ⟨none, none, o⟩) := by
  unfold dataBody
  cases o with
  | none => exact mok_none hs
  | some x =>
    rw [assert_ok he]
    dsimp only
    rcases ht.tame (.body x) p s he with h | ⟨h, _⟩
    · rw [if_neg (by rw [h, he]; simp), h]; exact mok_none hs
    · rw [if_pos (by rw [h]; simp)]; trivial

theorem doField_safe (ht : Tame cb) {p : HParser} {s : σ} {m : Marks} {ch : Byte} (hm : MOk p m) (he : p.errno = .ok) (hs : p.state = .field)
    (hg : Good 1 p) : ResMarks (doField cb p s m ch) := by
  obtain ⟨x, rfl⟩ := marks_field hm hs
  unfold doField
  dsimp only
  split
  · exact mok_field (fieldChar_good (c := token ch) (ch := ch) hg hs).2.2 _
  · split
    · exact dataField_safe ht he (by simp)
    · split
      · exact dataField_safe ht he (by simp)
      · split
        · exact dataField_safe ht he (by simp)
        · trivial

theorem doValueStart_safe (ht : Tame cb) {p : HParser} {s : σ} {ch : Byte} (he : p.errno = .ok) (hs : p.state = .valueStart) :
    ResMarks (doValueStart cb p s {} ch) := by
  unfold doValueStart
  split
  · exact mok_none (by simp [hs])
  · dsimp only [Option.or]
    split
    · exact dataValue_safe ht he (by simp)
    · split
      · exact dataValue_safe ht he (by simp)
      · split
        · exact mok_value rfl _
        · exact mok_value rfl _
        · split
          · trivial
          · exact mok_value rfl _
        · exact mok_value rfl _
        · exact mok_value rfl _

theorem doValue_safe (ht : Tame cb) {p : HParser} {s : σ} {m : Marks} {ch : Byte} (hm : MOk p m) (he : p.errno = .ok) (hs : p.state = .value)
    (hg : Good 1 p) : ResMarks (doValue cb p s m ch) := by
  obtain ⟨x, rfl⟩ := marks_value hm hs
  unfold doValue
  split
  · exact dataValue_safe ht he (by simp)
  · split
    · dsimp only
      rw [assert_ok he]
      generalize hq : ({ p with state := .almostDone } : HParser) = q
      have hqe : q.errno = .ok := by subst hq; exact he
      rcases ht.tame (.value x) q s hqe with h | ⟨h, _⟩
      · rw [if_neg (by rw [h, hqe]; simp)]
        exact doAlmostDone_marks
      · rw [if_pos (by rw [h]; simp)]; trivial
    · split
      · trivial
      · rename_i hv
        exact mok_value (valueChar_good hg hs hv).2.2 _

theorem doBodyIdentity_safe (ht : Tame cb) {p : HParser} {s : σ} {m : Marks} {rest : Bytes} (hm : MOk p m) (he : p.errno = .ok)
    (hs : p.state = .bodyIdentity) : ResMarks (doBodyIdentity cb p s m rest) := by
  obtain ⟨o, rfl⟩ := marks_body hm (Or.inl hs)
  have has : ∀ (q : HParser) (c : Bool), (q.assert c).errno = q.errno ∧ (q.assert c).state = q.state := by
    intro q c; unfold HParser.assert; split <;> exact ⟨rfl, rfl⟩
  unfold doBodyIdentity
  dsimp only
  generalize hp1 : HParser.assert p _ = p1
  have e1 : p1.errno = .ok := by rw [← hp1, (has _ _).1, he]
  have e2 : p1.state = .bodyIdentity := by rw [← hp1, (has _ _).2, hs]
  split
  · rw [assert_ok e1]
    split
    · trivial
    · rename_i h
      rw [if_pos]
      · trivial
      · have hc : ∀ q : HParser, q.errno = .ok → q.assert (q.errno == .ok) = q := fun q hq => assert_ok hq q
        rw [hc _ (by dsimp only; exact Decidable.not_not.1 h)]
        exact ht.done _ _ (by dsimp only; exact Decidable.not_not.1 h)
  · exact mok_body (by exact Or.inl e2) _

theorem switch_safe (ht : Tame cb) {p : HParser} {s : σ} {m : Marks} {ch : Byte} {rest : Bytes} (hm : MOk p m)
    (he : p.errno = .ok) (hg : Good 1 p) : ResMarks (switch cb p s m ch rest) := by
  by_cases h1 : p.state = .field
  · unfold switch; rw [h1]; exact doField_safe ht hm he h1 hg
  by_cases h2 : p.state = .value
  · unfold switch; rw [h2]; exact doValue_safe ht hm he h2 hg
  by_cases h3 : p.state = .bodyIdentity
  · unfold switch; rw [h3]; exact doBodyIdentity_safe ht hm he h3
  by_cases h4 : p.state = .chunkData
  · unfold switch; rw [h4]
    obtain ⟨o, rfl⟩ := marks_body hm (by simp [h4])
    have has : ∀ (q : HParser) (c : Bool), (q.assert c).state = q.state := by
      intro q c; unfold HParser.assert; split <;> rfl
    unfold doChunkData
    dsimp only
    refine mok_body ?_ _
    split
    · simp
    · rw [show ∀ (q : HParser) n, ({ q with contentLength := n } : HParser).state = q.state from fun _ _ => rfl, has, h4]; simp
  by_cases h5 : p.state = .chunkDataAlmostDone
  · unfold switch; rw [h5]
    obtain ⟨o, rfl⟩ := marks_body hm (by simp [h5])
    dsimp only
    split
    · trivial
    · refine dataBody_safe ht ?_ (by simp)
      dsimp only
      unfold HParser.assert
      split <;> exact he
  by_cases h6 : p.state = .bodyEof
  · unfold switch; rw [h6]
    obtain ⟨o, rfl⟩ := marks_body hm (by simp [h6])
    exact mok_body (by simp [h6]) _
  have hn := MOk.none hm ⟨h1, h2, h3, h4, h5, h6⟩
  subst hn
  by_cases h7 : p.state = .valueStart
  · unfold switch; rw [h7]; exact doValueStart_safe ht he h7
  have ha : ∀ q : HParser, ∀ c, (q.assert c).state = q.state := by
    intro q c; unfold HParser.assert; split <;> rfl
  have hst : ∀ q : HParser, q.state = p.state → MOk q {} := fun q h => mok_none (by rw [h]; exact ⟨h1, h2⟩)
  unfold switch fail
  split <;> first
    | exact doFieldStart_marks ht he | exact doAlmostDone_marks | exact doHeadersAlmostDone_marks ht he
    | exact doHeadersDone_marks ht he | (rename_i h; exact absurd h h1) | (rename_i h; exact absurd h h2) | (rename_i h; exact absurd h h3)
    | (rename_i h; exact absurd h h4) | (rename_i h; exact absurd h h5) | (rename_i h; exact absurd h h6) | (rename_i h; exact absurd h h7)
    | exact notify_marks ht (new_marks _) he
    | ((try dsimp only); repeat' split
       all_goals first | trivial | exact doFieldStart_marks ht he | exact hst _ rfl | exact hst _ (ha _ _) | (refine mok_none ?_; simp; done) | exact notify_marks ht (hst _ rfl) he | (refine notify_marks ht (mok_none ?_) he; simp; done) | (rename_i h; obtain ⟨t, _, rfl⟩ := addDigit_facts h; exact hst _ (ha _ _)))

theorem leftover_safe (ht : Tame cb) {p : HParser} {s : σ} {m : Marks} (hm : MOk p m) (he : p.errno = .ok) (hg : Good 0 p) :
    Good 0 (leftover cb p s m).1 ∧ ((leftover cb p s m).1.errno = .ok ∨ (leftover cb p s m).1.errno = .paused) := by
  have hcall : ∀ c, Good 0 (cb c p s).1 ∧ ((cb c p s).1.errno = .ok ∨ (cb c p s).1.errno = .paused) := by
    intro c
    rcases ht.tame c p s he with h | ⟨h, h'⟩
    · rw [h]; exact ⟨hg, Or.inl he⟩
    · exact ⟨h' 0 hg, Or.inr h⟩
  by_cases h1 : p.state = .field
  · obtain ⟨x, rfl⟩ := marks_field hm h1
    have := hcall (.field x)
    unfold leftover
    simp [HParser.assert, he]
    exact this
  by_cases h2 : p.state = .value
  · obtain ⟨x, rfl⟩ := marks_value hm h2
    have := hcall (.value x)
    unfold leftover
    simp [HParser.assert, he]
    exact this
  obtain ⟨f, v, b⟩ := m
  have e1 := hm.field; have e2 := hm.value
  cases f <;> cases v <;> simp [h1, h2] at e1 e2
  cases b with
  | none =>
    unfold leftover
    simp [HParser.assert, he]
    exact hg
  | some x =>
    have := hcall (.body x)
    unfold leftover
    simp [HParser.assert, he]
    exact this

theorem execLoop_safe (ht : Tame cb) : ∀ (data : Bytes) (p : HParser) (s : σ) (m : Marks) (pos : Nat), MOk p m → p.errno = .ok → Good 0 p →
    (execLoop cb p s m data pos).1.bad = false ∧
    ((execLoop cb p s m data pos).1.errno = .ok ∨ (execLoop cb p s m data pos).1.errno = .paused → Good 0 (execLoop cb p s m data pos).1)
  | [], p, s, m, pos, hm, he, hg => by
    rw [execLoop_nil]
    have := leftover_safe ht (s := s) hm he hg
    exact ⟨this.1.noBad, fun _ => this.1⟩
  | ch :: tl, p, s, m, pos, hm, he, hg => by
    rw [execLoop_cons]
    have hc := counted_good hg
    have hce : (counted p).errno = .ok := (counted_facts p).2.trans he
    have hcs := hm.counted
    generalize counted p = q at hc hce hcs ⊢
    split
    · exact ⟨hc.noBad, fun h => by simp at h⟩
    · have hsm := switch_safe ht (s := s) (ch := ch) (rest := ch :: tl) hcs hce hc
      have hsg := switch_good ht (s := s) (m := m) (ch := ch) (tl := tl) hc hce
      revert hsm hsg
      cases switch cb q s m ch (ch :: tl) with
      | ret p1 s1 n1 =>
        rintro _ ⟨h1, h2, h3⟩
        exact ⟨h2, fun h => h.elim (fun h => absurd h h1) h3⟩
      | go p1 s1 m1 n1 =>
        rintro h3 ⟨h5, h6, _⟩
        exact execLoop_safe ht _ _ _ _ _ (adv_ok h3 _) h6 h5
termination_by data => data.length
decreasing_by simp; omega

/-- The parser object between calls. -/
def Safe (p : HParser) : Prop := p.bad = false ∧ (p.errno = .ok ∨ p.errno = .paused → Good 0 p)

theorem execute_safe (ht : Tame cb) {p : HParser} (h : Safe p) (s : σ) (data : Bytes) : Safe (execute cb p s data).1 := by
  unfold execute
  split
  · exact h
  · rename_i he
    have he : p.errno = .ok := Decidable.not_not.1 he
    have hg := h.2 (Or.inl he)
    split
    · split
      · dsimp only
        have := tame_good (c := .messageComplete) (s := s) ht hg he
        exact ⟨this.noBad, fun _ => this⟩
      · exact h
      · exact h
      · exact ⟨hg.noBad, fun h => by simp at h⟩
    · exact execLoop_safe ht _ _ _ _ _ (fresh_ok p) he hg

end Pillow
