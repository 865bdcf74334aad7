import Verif.Props.Response
import Verif.Props.Protocol
import Verif.Lemmas.LogStep
/-!
# C15, exactly when `closed` is emitted twice
-/
namespace Pillow.Props
open Pillow Pillow.Spec Pillow.Doom

/-- How often `closed` was emitted since the last `initialize`. -/
def closings (log : List Ev) : Nat := ((epoch log).filter (fun e => match e with | .closed _ _ => true | _ => false)).length

theorem closings_snoc (log : List Ev) {e : Ev} (he : e ≠ .init) : closings log ≤ closings (log ++ [e]) := by
  unfold closings
  rw [epoch_snoc, if_neg he, List.filter_append, List.length_append]
  exact Nat.le_add_right _ _

theorem closings_closed (log : List Ev) (f : Bool) (u : Nat) : closings (log ++ [.closed f u]) = closings log + 1 := by
  unfold closings
  rw [epoch_snoc, if_neg (by simp), List.filter_append, List.length_append]
  rfl

theorem closings_grows {s s' : Conf} {l : Label} (hl : l ≠ .init) (h : s.step l = some s') : closings s.c.log ≤ closings s'.c.log := by
  rcases step_one hl h with e | ⟨x, hx, e⟩
  · rw [e]; exact Nat.le_refl _
  · rw [e]; exact closings_snoc _ hx

theorem closings_pos {lo : Bool} {log : List Ev} {ph : Phase} (h : Runs lo log ph) : ph = .closed → 1 ≤ closings log := by
  induction h with
  | start => intro e; cases e
  | step log p p' e hr hn ih =>
    intro hp
    cases hn with
    | recv _ bs => exact Nat.le_trans (ih hp) (closings_snoc _ (by simp))
    | forced _ u _ _ => rw [closings_closed]; exact Nat.le_add_left _ _
    | drained => rw [closings_closed]; exact Nat.le_add_left _ _
    | again _ => rw [closings_closed]; exact Nat.le_add_left _ _
    | head r h hh => split at hp <;> cases hp
    | body r h n bs _ _ _ _ _ => split at hp <;> cases hp
    | completed r h => unfold Phase.after at hp; split at hp <;> cases hp
    | completedOpen r h n _ _ _ => unfold Phase.after at hp; split at hp <;> cases hp
    | _ => cases hp

/-- Closed while `requestCompleted` was being handled: either a second `closed` has come, or it is still to come, or the
null device was used. -/
def Fated (s : Conf) : Prop := 2 ≤ closings s.c.log ∨ Zombie s.c s.stack ∨ s.c.fault.isSome = true

theorem zombie_base {c : Conn} {stack : List Instr} (h : Zombie c stack) (hst : c.st = .flushing) : ZBase c := by
  cases h with
  | z0 _ _ _ e => rw [hst] at e; cases e
  | z1 _ _ _ hz => exact hz
  | zf _ hz => exact hz
  | z2 _ hz => exact hz
  | zp _ hz => exact hz

theorem fated_step {s s' : Conf} {l : Label} (h : Fated s) (hl : l ≠ .init) (hs : s.step l = some s') : Fated s' := by
  rcases h with h | h | h
  · exact .inl (Nat.le_trans h (closings_grows hl hs))
  · by_cases hlive : s.c.st = .receivingHeaders
    · have hS := h
      generalize hst : s.stack = stack at hS
      cases hS with
      | z0 _ _ _ e => rw [hlive] at e; cases e
      | z1 _ _ _ _ e => rw [hlive] at e; cases e
      | zf _ _ e => rw [hlive] at e; cases e
      | z2 _ _ e => rw [hlive] at e; cases e
      | zp rest hz _ hd =>
        unfold Conf.step at hs
        rw [hz.fault] at hs
        simp only [Option.isSome_none, Bool.false_eq_true, ↓reduceIte] at hs
        cases l with
        | tau k =>
          simp only [hst, Option.some.injEq] at hs
          subst hs
          right; right
          have hx : (exec k .processInput s.c).1.fault = some .nullDevice := by
            show s.c.processInput.1.fault = _; unfold Conn.processInput; rw [if_neg (by rw [hlive]; simp), hd]
          show (exec k .processInput s.c).1.fault.isSome = true
          rw [hx]; rfl
        | ret => simp only [hst] at hs; cases hs
        | call _ | recv _ | bytesWritten _ | init | readParams | setParam _ _ | readDecoded _ =>
          simp only [show s.inEnv = false by simp [Conf.inEnv, hst]] at hs
          cases hs
    · rcases zombie_step h hlive (fun e => absurd e hl) hs with ⟨h1, h2, -⟩ | h
      · left
        rw [h2, closings_closed]
        exact Nat.succ_le_succ (closings_pos (zombie_base h h1).runs rfl)
      · exact .inr (.inl h)
  · unfold Conf.step at hs
    rw [if_pos h] at hs
    cases hs

theorem fated_run : ∀ {ls : List Label} {s s' : Conf}, Fated s → .init ∉ ls → s.run ls = some s' → Fated s'
  | [], s, s', h, _, hr => by cases hr; exact h
  | l :: ls, s, s', h, hi, hr => by
    unfold Conf.run at hr
    cases hs : s.step l with
    | none => rw [hs] at hr; cases hr
    | some t =>
      rw [hs] at hr
      exact fated_run (fated_step h (fun e => hi (by simp [e])) hs) (fun e => hi (by simp [e])) hr

/-- C15, exactly when `closed` is emitted twice: `C15_closed_once_partial` says that it never is if `close()` is not called
while `requestCompleted` is being handled.  If it is (and the null device was not used, see `C16_inevitable`), then
whatever happens next, as soon as control is back in the event loop, `closed` has been emitted twice or the next
`close()` - which is what the connection does when the peer disconnects - emits it once more. -/
theorem C15_inevitable (s s' : Conf) (h : Reach Proper s) (hst : s.c.st = .completed) (ls : List Label) (hi : .init ∉ ls)
    (hr : s.run (.call .close :: ls) = some s') (h0 : s'.stack = []) (hf : s'.c.fault = none) :
    2 ≤ closings s'.c.log ∨
    ∀ k, ∃ s'', s'.run [.call .close, .tau k] = some s'' ∧ closings s''.c.log = closings s'.c.log + 1 ∧ 2 ≤ closings s''.c.log := by
  have h1 : Fated s' := by
    unfold Conf.run at hr
    cases hs : s.step (.call .close) with
    | none => rw [hs] at hr; cases hr
    | some t =>
      rw [hs] at hr
      refine fated_run ?_ hi hr
      unfold Conf.step at hs
      split at hs
      · cases hs
      rename_i hff
      simp only at hs
      split at hs
      · rename_i he
        simp only [Option.some.injEq] at hs
        subst hs
        have hc := reach_core h he (by simpa using hff) (by rw [hst]; simp) (by rw [hst]; simp)
        exact .inr (.inl (.z0 _ hc (inEnv_frames he hc) hst))
      · cases hs
  rcases h1 with h1 | h1 | h1
  · exact .inl h1
  · right
    intro k
    have he : s'.inEnv = true := (inEnv_iff s').2 (.inl h0)
    rcases zombie_env he h1 with ⟨n, x, -, -, -, e, -⟩ | ⟨hz, hfl, hd, -, -⟩
    · rw [h0] at e; simp at e
    · refine ⟨_, run_call he hf .close k [], ?_⟩
      have hx : (exec k Call.close.instr s'.c).1.log = s'.c.log ++ [.closed true 0] := by
        show (s'.c.toClosed true).1.log = _
        unfold Conn.toClosed; rw [if_neg (by rw [hfl]; simp), hd]; rfl
      show closings (exec k Call.close.instr s'.c).1.log = _ ∧ 2 ≤ closings (exec k Call.close.instr s'.c).1.log
      rw [hx, closings_closed]
      exact ⟨rfl, Nat.succ_le_succ (closings_pos hz.runs rfl)⟩
  · rw [hf] at h1; cases h1

/-- The hypotheses of `C15_inevitable` are met: `close()` while `requestCompleted` is being handled, everything returns. -/
example : ∃ s s', Reach Proper s ∧ s.c.st = .completed ∧ s.run (.call .close :: ([.tau 0, .ret, .tau 0, .ret] ++ taus 6 ++ [.ret])) = some s' ∧
    s'.stack = [] ∧ s'.c.fault = none ∧ closings s'.c.log = 1 := by
  obtain ⟨t, h1, h2⟩ := exists_of_endsIn (allowed := Proper) (ls := toCompletion b!"HTTP/1.0")
    (p := fun s => s.c.st == .completed &&
      (s.run (.call .close :: ([.tau 0, .ret, .tau 0, .ret] ++ taus 6 ++ [.ret]))).any (fun s' => s'.stack == [] && s'.c.fault == none && closings s'.c.log == 1)) (by decide +kernel)
  simp only [Bool.and_eq_true, beq_iff_eq, Option.any_eq_true] at h2
  obtain ⟨h2, s', h3, ⟨h4, h5⟩, h6⟩ := h2
  exact ⟨t, s', h1, h2, h3, h4, h5, h6⟩

end Pillow.Props
