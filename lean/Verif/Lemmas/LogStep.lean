import Verif.Model.HttpConnection
set_option linter.unusedSimpArgs false
/-!
# Every step of a connection records at most one event
-/
namespace Pillow

/-- At most one event is added, and it is not `init`. -/
def OneMore (a b : List Ev) : Prop := b = a ∨ ∃ e, e ≠ .init ∧ b = a ++ [e]

theorem OneMore.rfl {a : List Ev} : OneMore a a := .inl (Eq.refl a)

theorem one_write (c : Conn) (e : Ev) (h : e ≠ .init) : OneMore c.log (c.write e).log := by
  unfold Conn.write; split
  · exact .inl (Eq.refl _)
  · exact .inr ⟨e, h, Eq.refl _⟩

theorem one_write_of {a : List Ev} (c : Conn) (e : Ev) (h : e ≠ .init) (ha : c.log = a) : OneMore a (c.write e).log := ha ▸ one_write c e h

theorem log_view (c : Conn) : c.readView.log = c.log := by simp only [Conn.readView]; split <;> exact Eq.refl _

theorem exec_one (k : Nat) (i : Instr) (c : Conn) : OneMore c.log (exec k i c).1.log := by
  cases i with
  | env => exact .rfl
  | processInput =>
    simp only [exec, Conn.processInput]
    repeat' split
    all_goals exact .inl (by simp [Conn.fill, Conn.parse])
  | recvContent =>
    simp only [exec, Conn.recvContent]
    repeat' split
    all_goals first | exact .rfl | exact one_write_of _ _ (by simp) (Eq.refl _)
  | sendHeaders =>
    simp only [exec, Conn.sendHeaders]
    split
    · exact .rfl
    · have key : ∀ (c2 : Conn) (r : ReqView), c2.log = c.log → OneMore c.log (c2.emit (.ready r)).log := fun c2 r h2 =>
        .inr ⟨.ready r, by simp, by simp [Conn.emit, h2]⟩
      apply key
      split <;> exact Eq.refl _
  | sendContent =>
    simp only [exec, Conn.sendContent]
    repeat' split
    all_goals first | exact .rfl | exact .inl (log_view _)
  | sendContentRest => simp only [exec, Conn.sendContentRest]; split <;> exact .rfl
  | completed =>
    simp only [exec, Conn.complete]
    split
    · exact .rfl
    · exact .inr ⟨.completed, by simp, Eq.refl _⟩
  | completedRest => simp only [exec, Conn.completedRest]; split <;> exact .rfl
  | completedRest2 => simp only [exec, Conn.completedRest2, Conn.toReceivingHeaders]; split <;> exact .rfl
  | flush => simp only [exec, Conn.flush]; repeat' split
             all_goals exact .rfl
  | drain => simp only [exec, Conn.drain]; split <;> exact .rfl
  | drainRest => simp only [exec, Conn.drainRest]; repeat' split
                 all_goals exact .rfl
  | flushing => simp only [exec, Conn.toFlushing]; split <;> exact .rfl
  | flushingRest => simp only [exec, Conn.flushingRest]; repeat' split
                    all_goals exact .rfl
  | closed f =>
    simp only [exec, Conn.toClosed]
    split
    · exact .rfl
    · exact .inr ⟨_, by simp, Eq.refl _⟩
  | closedRest => exact .rfl
  | errorResponse code =>
    simp only [exec, Conn.errorResponse]
    split
    · exact .rfl
    · exact one_write _ _ (by simp)
  | writeResponse st hs ct => simp only [exec, Conn.writeResponse]; split <;> exact .rfl
  | writeResponseRest ct =>
    simp only [exec, Conn.writeResponseRest]
    repeat' split
    all_goals first | exact .rfl | exact .inl (log_view _)
  | writeHeaders st hs =>
    simp only [exec, Conn.writeHeaders]
    repeat' split
    · exact .rfl
    · exact .inl (log_view _)
    · exact one_write_of _ _ (by simp) (log_view _)
  | writeContent ct =>
    simp only [exec, Conn.writeContent]
    split
    · exact .rfl
    split
    · exact .rfl
    split
    · exact .rfl
    split
    · split
      · exact .inl (log_view _)
      · split <;> split <;> exact one_write_of _ _ (by simp) (log_view _)
    · exact .rfl
  | endContent =>
    simp only [exec, Conn.endContent]
    repeat' split
    all_goals first | exact .rfl | exact one_write _ _ (by simp)

theorem step_one {s s' : Conf} {l : Label} (hl : l ≠ .init) (h : s.step l = some s') : OneMore s.c.log s'.c.log := by
  unfold Conf.step at h
  split at h
  · cases h
  cases l with
  | tau k =>
    dsimp only at h
    split at h
    · cases h
    · cases h
    · cases h; exact exec_one k _ _
  | call a => dsimp only at h; split at h <;> cases h; exact .rfl
  | ret => dsimp only at h; split at h <;> cases h; exact .rfl
  | recv bs =>
    dsimp only at h
    split at h
    · split at h <;> cases h
      exact .inr ⟨.recv bs, by simp, rfl⟩
    · cases h
  | bytesWritten k =>
    dsimp only at h
    split at h
    · split at h <;> cases h
      exact .rfl
    · cases h
  | init => exact absurd rfl hl
  | readParams => dsimp only at h; split at h <;> cases h; simp only [Conn.requestParams]; split <;> exact .rfl
  | setParam n v => dsimp only at h; split at h <;> cases h; simp only [Conn.setRequestParam, Conn.requestParams]; split <;> exact .rfl
  | readDecoded d =>
    dsimp only at h
    split at h <;> cases h
    cases d <;> simp only [Conn.readDecoded] <;> split <;> exact .rfl

theorem init_log {s s' : Conf} (h : s.step .init = some s') : s'.c.log = s.c.log ++ [.init] := by
  unfold Conf.step at h
  split at h
  · cases h
  dsimp only at h
  split at h <;> cases h
  simp only [Conn.initialize, Conn.emit, Conn.toReceivingHeaders]
  split <;> rfl

end Pillow
