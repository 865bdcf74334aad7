import Verif.Lemmas.Run
set_option linter.unusedSimpArgs false
set_option linter.unusedVariables false
/-!
# While flushing, `bytesWritten` is or will be connected to `drain`
-/
namespace Pillow
open Spec

def DrainsC (c : Conn) (stack : List Instr) : Prop :=
  c.st = .flushing → ∀ d, c.dev = some d → d.drainConn = true ∨ .flushingRest ∈ stack

/-- The connection to `drain` of the device is kept. -/
def KeepsConn (c c' : Conn) : Prop :=
  c'.st = .flushing → c.st = .flushing ∧ ∀ d', c'.dev = some d' → ∃ d, c.dev = some d ∧ d'.drainConn = d.drainConn

theorem KeepsConn.of_eq {c c' : Conn} (h1 : c'.st = c.st) (h2 : c'.dev = c.dev) : KeepsConn c c' :=
  fun h => ⟨h1 ▸ h, fun d' hd => ⟨d', h2 ▸ hd, rfl⟩⟩

theorem KeepsConn.refl (c : Conn) : KeepsConn c c := .of_eq rfl rfl

theorem KeepsConn.trans {a b c : Conn} (h1 : KeepsConn a b) (h2 : KeepsConn b c) : KeepsConn a c := by
  intro h
  obtain ⟨k1, k2⟩ := h2 h
  obtain ⟨k3, k4⟩ := h1 k1
  refine ⟨k3, fun d' hd => ?_⟩
  obtain ⟨d1, e1, e2⟩ := k2 d' hd
  obtain ⟨d2, e3, e4⟩ := k4 d1 e1
  exact ⟨d2, e3, e2.trans e4⟩

theorem KeepsConn.of_st {c c' : Conn} (h : c'.st ≠ .flushing) : KeepsConn c c' := fun k => absurd k h

theorem keeps_write (c : Conn) (e : Ev) : KeepsConn c (c.write e) := by
  unfold Conn.write
  cases hd : c.dev with
  | none => exact fun h => ⟨h, by simp [hd]⟩
  | some d => exact fun h => ⟨h, fun d' hd' => ⟨d, hd, by simp at hd'; rw [← hd']⟩⟩

theorem keeps_readView (c : Conn) : KeepsConn c c.readView := by
  unfold Conn.readView; split
  · exact .refl c
  · exact .of_eq rfl rfl

theorem st_write (c : Conn) (e : Ev) : (c.write e).st = c.st := by unfold Conn.write; split <;> rfl
theorem st_readView (c : Conn) : c.readView.st = c.st := by unfold Conn.readView; split <;> rfl

theorem exec_keeps (k : Nat) (i : Instr) (c : Conn) (h1 : i ≠ .flushing) (h2 : i ≠ .flushingRest) : KeepsConn c (exec k i c).1 := by
  cases i <;> simp only [exec]
  case env => exact .refl c
  case processInput =>
    unfold Conn.processInput
    split
    · exact .refl c
    · rename_i hst
      apply KeepsConn.of_st
      split
      · intro h; simp at h; rw [h] at hst; simp at hst
      · rename_i d _
        have hf : (c.fill d).st = c.st := rfl
        have : c.st ≠ .flushing := by intro h; rw [h] at hst; simp at hst
        dsimp only
        split
        · split
          · exact this
          · split <;> exact this
        · split <;> exact this
  case recvContent =>
    unfold Conn.recvContent
    split
    · exact .refl c
    · apply KeepsConn.of_st
      dsimp only
      split
      · simp [Conn.setup]
      · split
        · simp [Conn.setup]
        · split
          · split
            · simp [st_write, Conn.setup]
            · simp [Conn.setup]
          · simp [Conn.setup]
  case sendHeaders =>
    unfold Conn.sendHeaders
    split
    · exact .refl c
    · apply KeepsConn.of_st
      simp only [Conn.emit, Conn.setup]
      split <;> simp
  case sendContent =>
    unfold Conn.sendContent
    split
    · exact .refl c
    · apply KeepsConn.of_st
      dsimp only
      split
      · simp
      · split <;> simp [st_readView]
  case sendContentRest =>
    unfold Conn.sendContentRest
    dsimp only
    split
    · exact .of_eq rfl rfl
    · exact .refl c
  case completed =>
    unfold Conn.complete
    split
    · exact .refl c
    · exact .of_st (by simp [Conn.emit])
  case completedRest =>
    unfold Conn.completedRest
    dsimp only
    split <;> exact .of_eq rfl rfl
  case completedRest2 =>
    unfold Conn.completedRest2 Conn.toReceivingHeaders
    dsimp only
    split
    · exact .refl c
    · exact .of_st (by simp)
  case flush =>
    unfold Conn.flush
    cases hd : c.dev with
    | none => exact .refl c
    | some d =>
      dsimp only
      split
      · exact fun h => ⟨h, fun d' hd' => ⟨d, hd, by simp at hd'; rw [← hd']⟩⟩
      · exact .refl c
  case drain => unfold Conn.drain; split <;> exact .refl c
  case drainRest => unfold Conn.drainRest; split; exact .refl c; split <;> exact .refl c
  case flushing => exact absurd rfl h1
  case flushingRest => exact absurd rfl h2
  case closed f =>
    unfold Conn.toClosed
    split
    · exact .refl c
    · exact .of_st (by simp [Conn.emit])
  case closedRest =>
    unfold Conn.closedRest
    exact fun h => ⟨h, by simp⟩
  case errorResponse code =>
    unfold Conn.errorResponse
    split
    · exact .refl c
    · exact keeps_write c _
  case writeResponse st hs ct =>
    unfold Conn.writeResponse
    split
    · exact .refl c
    · exact .of_eq rfl rfl
  case writeResponseRest ct =>
    unfold Conn.writeResponseRest
    split
    · exact .refl c
    · dsimp only
      split <;> exact keeps_readView c
  case writeHeaders st hs =>
    unfold Conn.writeHeaders
    split
    · exact .refl c
    · dsimp only
      split
      · exact (keeps_readView c).trans (.of_eq rfl rfl)
      · exact (keeps_readView c).trans ((KeepsConn.of_eq (c := c.readView) rfl rfl).trans (keeps_write _ _))
  case writeContent ct =>
    unfold Conn.writeContent
    split
    · exact .refl c
    · split
      · exact .refl c
      · split
        · exact .refl c
        · split
          · dsimp only
            split
            · exact keeps_readView c
            · have : ∀ e, KeepsConn c ({ c.readView with sent := c.readView.sent + ct.length }.write e) :=
                fun e => (keeps_readView c).trans ((KeepsConn.of_eq (c := c.readView) rfl rfl).trans (keeps_write _ _))
              repeat' split
              all_goals exact this _
          · exact .refl c
  case endContent =>
    unfold Conn.endContent
    split
    · exact .refl c
    · split
      · exact .refl c
      · dsimp only
        split
        · exact keeps_write c _
        · exact .of_eq rfl rfl

theorem drains_keep {c c' : Conn} {i : Instr} {push rest : List Instr} (h : DrainsC c (i :: rest)) (hi : i ≠ .flushingRest)
    (hk : KeepsConn c c') : DrainsC c' (push ++ rest) := by
  intro hst d' hd'
  obtain ⟨k1, k2⟩ := hk hst
  obtain ⟨d, hd, e⟩ := k2 d' hd'
  rcases h k1 d hd with h | h
  · exact .inl (e.trans h)
  · rcases List.mem_cons.1 h with h | h
    · exact absurd h.symm hi
    · exact .inr (by simp [h])

theorem drains_same {c c' : Conn} {stack : List Instr} (h : DrainsC c stack) (hk : KeepsConn c c') : DrainsC c' stack := by
  intro hst d' hd'
  obtain ⟨k1, k2⟩ := hk hst
  obtain ⟨d, hd, e⟩ := k2 d' hd'
  rcases h k1 d hd with h | h
  · exact .inl (e.trans h)
  · exact .inr h

theorem drains_step {s s' : Conf} {l : Label} (h : DrainsC s.c s.stack) (hs : s.step l = some s') : DrainsC s'.c s'.stack := by
  unfold Conf.step at hs
  split at hs
  · cases hs
  · cases l with
    | tau k =>
      dsimp only at hs
      split at hs
      · cases hs
      · cases hs
      · rename_i i rest hne he
        simp only [Option.some.injEq] at hs
        subst hs
        rw [he] at h
        by_cases h1 : i = .flushing
        · subst h1
          simp only [exec]
          unfold Conn.toFlushing
          split
          · exact drains_keep (push := []) h (by simp) (.refl _)
          · intro _ d hd
            exact .inr (by simp)
        · by_cases h2 : i = .flushingRest
          · subst h2
            simp only [exec]
            unfold Conn.flushingRest
            split
            · cases hd : s.c.dev with
              | none => intro _ d hd'; simp [hd] at hd'
              | some d => intro _ d' hd'; simp at hd'; rw [← hd']; exact .inl rfl
            · rename_i hst
              intro h; exact absurd h hst
          · exact drains_keep h h2 (exec_keeps k i s.c h1 h2)
    | call a =>
      dsimp only at hs
      split at hs
      · simp only [Option.some.injEq] at hs
        subst hs
        intro hst d hd
        rcases h hst d hd with h | h
        · exact .inl h
        · exact .inr (by simp [h])
      · cases hs
    | ret =>
      dsimp only at hs
      split at hs
      · rename_i rest he
        simp only [Option.some.injEq] at hs
        subst hs
        rw [he] at h
        exact drains_keep (push := []) h (by simp) (.refl _)
      · cases hs
    | recv bs =>
      dsimp only at hs
      split at hs
      · split at hs
        · rename_i d hd
          simp only [Option.some.injEq] at hs
          subst hs
          refine drains_same h fun hst => ⟨hst, fun d' hd' => ⟨d, hd, ?_⟩⟩
          simp [Conn.emit] at hd'; rw [← hd']
        · cases hs
      · cases hs
    | bytesWritten k =>
      dsimp only at hs
      split at hs
      · split at hs
        · rename_i d hd
          simp only [Option.some.injEq] at hs
          subst hs
          have : DrainsC { s.c with dev := some { d with pending := d.pending - k } } s.stack := by
            refine drains_same h fun hst => ⟨hst, fun d' hd' => ⟨d, hd, ?_⟩⟩
            simp at hd'; rw [← hd']
          dsimp only
          split
          · intro hst d hd
            rcases this hst d hd with h | h
            · exact .inl h
            · exact .inr (by simp [h])
          · exact this
        · cases hs
      · cases hs
    | init =>
      dsimp only at hs
      split at hs
      · simp only [Option.some.injEq] at hs
        subst hs
        intro hst
        unfold Conn.initialize Conn.toReceivingHeaders Conn.emit at hst
        dsimp only at hst
        split at hst
        · rename_i h; rw [h] at hst; cases hst
        · cases hst
      · cases hs
    | readParams =>
      dsimp only at hs
      split at hs
      · simp only [Option.some.injEq] at hs
        subst hs
        refine drains_same h ?_
        unfold Conn.requestParams
        split
        · exact .of_eq rfl rfl
        · exact .refl _
      · cases hs
    | setParam n v =>
      dsimp only at hs
      split at hs
      · simp only [Option.some.injEq] at hs
        subst hs
        refine drains_same h ?_
        unfold Conn.setRequestParam Conn.requestParams
        dsimp only
        split <;> exact .of_eq rfl rfl
      · cases hs
    | readDecoded x =>
      dsimp only at hs
      split at hs
      · simp only [Option.some.injEq] at hs
        subst hs
        refine drains_same h ?_
        unfold Conn.readDecoded
        cases x <;> dsimp only <;> split <;> first | exact .refl _ | exact .of_eq rfl rfl
      · cases hs

theorem drains_reach {allowed : Conf → Label → Prop} {s : Conf} (h : Reach allowed s) : DrainsC s.c s.stack := by
  induction h with
  | start => intro h; cases h
  | step s s' l _ _ hs ih => exact drains_step ih hs

end Pillow
