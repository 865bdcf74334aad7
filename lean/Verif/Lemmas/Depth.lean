import Verif.Spec.Depth
import Verif.Props.Serve
import Verif.Lemmas.Run
set_option linter.unusedSimpArgs false
set_option linter.unusedVariables false
namespace Pillow.Depth
open Pillow Pillow.Spec

/-- How many steps an instruction can lead to until foreign code has been in control and beyond, `e` for each time it is. -/
def w (e : Nat) : Instr → Nat
  | .env => e
  | .sendContentRest | .flushingRest | .closedRest => 1
  | .flush => 1 + e
  | .sendHeaders => 1 + e
  | .closed _ => 2 + e
  | .drainRest => 3 + e
  | .drain => 5 + 2 * e
  | .flushing => 7 + 2 * e
  | .errorResponse _ => 8 + 2 * e
  | .recvContent => 9 + 2 * e
  | .processInput => 10 + 2 * e
  | .completedRest2 => 11 + 2 * e
  | .completedRest => 13 + 3 * e
  | .completed => 14 + 4 * e
  | .sendContent => 16 + 4 * e
  | .writeHeaders _ _ => 17 + 4 * e
  | .writeContent _ | .endContent => 15 + 4 * e
  | .writeResponseRest _ => 16 + 4 * e
  | .writeResponse _ _ _ => 34 + 8 * e

/-- While content is awaited, reading leads to less. -/
def wTop (e : Nat) (st : CState) : Instr → Nat
  | .processInput => if st = .receivingContent then 2 + e else 10 + 2 * e
  | i => w e i

def wt (e : Nat) (l : List Instr) : Nat := (l.map (w e)).sum

def weight (e : Nat) (st : CState) : List Instr → Nat
  | [] => 0
  | i :: l => wTop e st i + wt e l

theorem wTop_le (e : Nat) (st : CState) (i : Instr) : wTop e st i ≤ w e i := by
  cases i <;> simp [wTop, w]
  split <;> omega

theorem weight_le (e : Nat) (st : CState) (l : List Instr) : weight e st l ≤ wt e l := by
  cases l with
  | nil => simp [weight]
  | cons i l => simp only [weight, wt, List.map_cons, List.sum_cons]; have := wTop_le e st i; omega

theorem wt_append (e : Nat) (a b : List Instr) : wt e (a ++ b) = wt e a + wt e b := by simp [wt]

/-- One instruction: what it pushes weighs less than it did. -/
theorem exec_weight (e k : Nat) (i : Instr) (hi : i ≠ .env) (c : Conn) : weight e (exec k i c).1.st (exec k i c).2 + 1 ≤ wTop e c.st i := by
  cases i <;> simp only [exec]
  case env => exact absurd rfl hi
  case processInput =>
    have hlow : 2 + e ≤ wTop e c.st .processInput := by simp only [wTop]; split <;> omega
    unfold Conn.processInput
    split
    · simp only [weight]; omega
    · rename_i h
      split
      · simp only [weight]; omega
      · rename_i d hd
        simp only []
        split
        · rename_i h1
          have h1 : c.st = .receivingHeaders := h1
          have hw : wTop e c.st .processInput = 10 + 2 * e := by simp only [wTop]; rw [if_neg (by rw [h1]; simp)]
          rw [hw]
          split
          · simp [weight, wt, wTop, w]; omega
          · split <;> simp [weight, wt, wTop, w] <;> omega
        · split
          · have : ∀ st, weight e st [.sendHeaders] = 1 + e := fun _ => rfl
            rw [this]; omega
          · simp only [weight]; omega
  case recvContent =>
    unfold Conn.recvContent
    split
    · simp [weight, wTop, w]; omega
    · simp only []
      split
      · simp [weight, wt, wTop, w]; omega
      · split
        · simp [weight, wt, wTop, w]; omega
        · split
          · rename_i h1 h2 h3
            have hst : ∀ b, (if b = true then Conn.write { ({ c with st := CState.receivingContent } : Conn).setup with clen := (({ c with st := CState.receivingContent } : Conn).setup.announced (contentLengthIndex c.buf c.refs)).1 } .interim else { ({ c with st := CState.receivingContent } : Conn).setup with clen := (({ c with st := CState.receivingContent } : Conn).setup.announced (contentLengthIndex c.buf c.refs)).1 }).st = .receivingContent := by
              intro b
              split
              · unfold Conn.write; split <;> rfl
              · rfl
            simp only [weight, wt, wTop, List.map_nil, List.sum_nil, hst]
            simp [w]; omega
          · simp [weight, wt, wTop, w]; omega
  case sendHeaders => unfold Conn.sendHeaders; split <;> simp [weight, wt, wTop, w, Conn.emit] <;> omega
  case sendContent =>
    unfold Conn.sendContent
    split
    · simp [weight, wTop, w]; omega
    · simp only []
      split
      · simp [weight, wt, wTop, w]; omega
      · split <;> simp [weight, wt, wTop, w] <;> omega
  case sendContentRest => unfold Conn.sendContentRest; simp [weight, wTop, w]
  case completed => unfold Conn.complete; split <;> simp [weight, wt, wTop, w, Conn.emit] <;> omega
  case completedRest => unfold Conn.completedRest; simp only []; split <;> simp [weight, wt, wTop, w] <;> omega
  case completedRest2 =>
    have := wTop_le e c.completedRest2.1.st .processInput
    unfold Conn.completedRest2 at *
    simp only [weight, wt, List.map_nil, List.sum_nil] at *
    have h1 : w e .processInput = 10 + 2 * e := rfl
    have h2 : wTop e c.st .completedRest2 = 11 + 2 * e := rfl
    omega
  case flush =>
           unfold Conn.flush
           split
           · simp [weight, wTop, w]; try omega
           · split <;> simp [weight, wt, wTop, w] <;> omega
  case drain => unfold Conn.drain; split <;> simp [weight, wt, wTop, w] <;> omega
  case drainRest =>
           unfold Conn.drainRest
           split
           · simp [weight, wTop, w]; try omega
           · split <;> simp [weight, wt, wTop, w] <;> omega
  case flushing => unfold Conn.toFlushing; split <;> simp [weight, wt, wTop, w] <;> omega
  case flushingRest => unfold Conn.flushingRest; split <;> (try split) <;> simp [weight, wt, wTop, w]
  case closed f => unfold Conn.toClosed; split <;> simp [weight, wt, wTop, w, Conn.emit] <;> omega
  case closedRest => unfold Conn.closedRest; simp [weight, wTop, w]
  case errorResponse code => unfold Conn.errorResponse; split <;> simp [weight, wt, wTop, w] <;> omega
  case writeResponse s hs ct => unfold Conn.writeResponse; split <;> simp [weight, wt, wTop, w] <;> omega
  case writeResponseRest ct =>
    unfold Conn.writeResponseRest
    split
    · simp [weight, wTop, w]; omega
    · simp only []; split <;> simp [weight, wt, wTop, w] <;> omega
  case writeHeaders s hs =>
    unfold Conn.writeHeaders
    split
    · simp [weight, wTop, w]; omega
    · simp only []; split <;> simp [weight, wt, wTop, w] <;> omega
  case writeContent ct =>
    unfold Conn.writeContent
    split
    · simp [weight, wTop, w]; omega
    · split
      · simp [weight, wTop, w]; omega
      · split
        · simp [weight, wTop, w]; omega
        · split
          · simp only []
            split
            · simp [weight, wTop, w]; omega
            · split <;> split <;> simp [weight, wt, wTop, w] <;> omega
          · simp [weight, wTop, w]; omega
  case endContent =>
    unfold Conn.endContent
    split
    · simp [weight, wTop, w]; omega
    · split <;> simp [weight, wt, wTop, w] <;> omega

theorem step_tau {s s' : Conf} {k : Nat} (hs : s.step (.tau k) = some s') :
    ∃ i rest, s.stack = i :: rest ∧ i ≠ .env ∧ s' = ⟨(exec k i s.c).1, (exec k i s.c).2 ++ rest⟩ := by
  cases hst : s.stack with
  | nil => simp [Conf.step, hst] at hs
  | cons i rest =>
    refine ⟨i, rest, rfl, ?_, ?_⟩
    · rintro rfl; simp [Conf.step, hst] at hs
    · cases i <;> simp [Conf.step, hst] at hs <;> exact hs.2.symm

theorem step_ret {s s' : Conf} (hs : s.step .ret = some s') : ∃ rest, s.stack = .env :: rest ∧ s' = ⟨s.c, rest⟩ := by
  cases hst : s.stack with
  | nil => simp [Conf.step, hst] at hs
  | cons i rest =>
    cases i <;> simp [Conf.step, hst] at hs
    exact ⟨rest, rfl, hs.2.symm⟩

theorem weight_append (e : Nat) (st : CState) (a b : List Instr) : weight e st (a ++ b) ≤ weight e st a + wt e b := by
  cases a with
  | nil => simpa [weight] using weight_le e st b
  | cons i a => simp [weight, wt_append]; omega

/-- A step of the connection makes the stack lighter. -/
theorem tau_weight (e : Nat) {s s' : Conf} {k : Nat} (hs : s.step (.tau k) = some s') :
    weight e s'.c.st s'.stack + 1 ≤ weight e s.c.st s.stack := by
  obtain ⟨i, rest, h1, h2, rfl⟩ := step_tau hs
  have h3 := exec_weight e k i h2 s.c
  have h4 := weight_append e (exec k i s.c).1.st (exec k i s.c).2 rest
  rw [h1]
  show weight e (exec k i s.c).1.st ((exec k i s.c).2 ++ rest) + 1 ≤ wTop e s.c.st i + wt e rest
  omega

/-- Until foreign code is in control. -/
def seg (l : List Instr) : List Instr := l.takeWhile (· ≠ .env)

/-- All stretches of the stack between foreign code are light. -/
def Light (n : Nat) : List Instr → Prop
  | [] => True
  | i :: l => wt 0 (seg (i :: l)) ≤ n ∧ Light n l

theorem light_tail {n : Nat} {i : Instr} {l : List Instr} (h : Light n (i :: l)) : Light n l := h.2

theorem seg_cons (i : Instr) (h : i ≠ .env) (l : List Instr) : seg (i :: l) = i :: seg l := by simp [seg, h]
theorem seg_env (l : List Instr) : seg (.env :: l) = [] := by simp [seg]

theorem light_of_tail {n : Nat} {l : List Instr} (h1 : wt 0 (seg l) ≤ n) (h2 : ∀ i r, l = i :: r → Light n r) : Light n l := by
  cases l with
  | nil => trivial
  | cons i r => exact ⟨h1, h2 i r rfl⟩

/-- What an instruction pushes in front of a light stack. -/
theorem light_push {n : Nat} : ∀ {a b : List Instr}, Light n b → wt 0 a + wt 0 (seg b) ≤ n → Light n (a ++ b)
  | [], b, hb, _ => hb
  | i :: a, b, hb, h => by
    have h' : wt 0 a + wt 0 (seg b) ≤ n := by
      simp only [wt, List.map_cons, List.sum_cons] at h ⊢; omega
    refine ⟨?_, light_push hb h'⟩
    have key : ∀ a : List Instr, wt 0 (seg (a ++ b)) ≤ wt 0 a + wt 0 (seg b) := by
      intro a
      induction a with
      | nil => simp [wt]
      | cons j a ih =>
        by_cases hj : j = .env
        · subst hj; rw [List.cons_append, seg_env]; simp [wt]
        · rw [List.cons_append, seg_cons j hj]
          simp only [wt, List.map_cons, List.sum_cons] at ih ⊢; omega
    exact Nat.le_trans (key (i :: a)) h

theorem seg_push (a b : List Instr) : wt 0 (seg (a ++ b)) ≤ wt 0 a + wt 0 (seg b) := by
  induction a with
  | nil => simp [wt]
  | cons j a ih =>
    by_cases hj : j = .env
    · subst hj; rw [List.cons_append, seg_env]; simp [wt]
    · rw [List.cons_append, seg_cons j hj]
      simp only [wt, List.map_cons, List.sum_cons] at ih ⊢; omega

theorem seg_weight (st : CState) (a b : List Instr) : weight 0 st (seg (a ++ b)) ≤ weight 0 st a + wt 0 (seg b) := by
  cases a with
  | nil => simpa [weight] using weight_le 0 st (seg b)
  | cons j a =>
    by_cases hj : j = .env
    · subst hj; rw [List.cons_append, seg_env]; simp [weight]
    · rw [List.cons_append, seg_cons j hj]
      have := seg_push a b
      simp only [weight]; omega

theorem tau_seg {s s' : Conf} {k : Nat} (hs : s.step (.tau k) = some s') :
    weight 0 s'.c.st (seg s'.stack) + 1 ≤ weight 0 s.c.st (seg s.stack) := by
  obtain ⟨i, rest, h1, h2, rfl⟩ := step_tau hs
  have h3 := exec_weight 0 k i h2 s.c
  have h4 := seg_weight (exec k i s.c).1.st (exec k i s.c).2 rest
  rw [h1, seg_cons i h2]
  show weight 0 (exec k i s.c).1.st (seg ((exec k i s.c).2 ++ rest)) + 1 ≤ wTop 0 s.c.st i + wt 0 (seg rest)
  omega

/-- The stretch being executed is light, and so are those below. -/
def LightTop (s : Conf) : Prop := weight 0 s.c.st (seg s.stack) ≤ 34 ∧ Light 34 s.stack.tail

theorem lightTop_of {c : Conn} {l : List Instr} (h : Light 34 l) : LightTop ⟨c, l⟩ := by
  cases l with
  | nil => exact ⟨by simp [seg, weight], trivial⟩
  | cons i l => exact ⟨Nat.le_trans (weight_le _ _ _) h.1, h.2⟩

theorem light_inEnv {s : Conf} (he : s.inEnv = true) (h : LightTop s) : Light 34 s.stack := by
  rcases (inEnv_iff s).1 he with e | ⟨rest, e⟩
  · rw [e]; trivial
  · have := h.2
    rw [e] at this ⊢
    exact ⟨by rw [seg_env]; simp [wt], this⟩

theorem call_weight (a : Call) : w 0 a.instr ≤ 34 := by cases a <;> simp [Call.instr, w]

theorem lightTop_call {s : Conf} (he : s.inEnv = true) (h : LightTop s) (c : Conn) (i : Instr) (hi : w 0 i ≤ 34) : LightTop ⟨c, i :: s.stack⟩ := by
  refine lightTop_of ⟨?_, light_inEnv he h⟩
  rcases (inEnv_iff s).1 he with e | ⟨rest, e⟩
  all_goals
    rw [e]
    by_cases hj : i = .env
    · subst hj; rw [seg_env]; simp [wt]
    · rw [seg_cons i hj]; simp [wt, seg]; exact hi

theorem lightTop_step {s s' : Conf} {l : Label} (h : LightTop s) (hs : s.step l = some s') : LightTop s' := by
  cases l with
  | tau k =>
    have h1 := tau_seg hs
    refine ⟨by have := h.1; omega, ?_⟩
    obtain ⟨i, rest, e1, e2, rfl⟩ := step_tau hs
    have h0 := h
    unfold LightTop at h0
    rw [e1, seg_cons i e2] at h0
    have h3 := exec_weight 0 k i e2 s.c
    show Light 34 ((exec k i s.c).2 ++ rest).tail
    cases hp : (exec k i s.c).2 with
    | nil =>
      rw [List.nil_append]
      cases hr : rest with
      | nil => trivial
      | cons j r => have := h0.2; rw [List.tail_cons, hr] at this; exact this.2
    | cons j a =>
      rw [List.cons_append, List.tail_cons]
      refine light_push h0.2 ?_
      rw [hp] at h3
      simp only [weight] at h3 h0
      have := h0.1
      rw [List.tail_cons] at *
      omega
  | ret =>
    obtain ⟨rest, e, rfl⟩ := step_ret hs
    have := h.2
    rw [e] at this
    exact lightTop_of this
  | call a =>
    have he : s.inEnv = true ∧ s' = ⟨s.c, a.instr :: s.stack⟩ := by
      unfold Conf.step at hs
      split at hs
      · cases hs
      · simp only [] at hs
        split at hs
        · rename_i he; cases hs; exact ⟨he, rfl⟩
        · cases hs
    rw [he.2]
    exact lightTop_call he.1 h s.c _ (call_weight a)
  | bytesWritten k =>
    unfold Conf.step at hs
    split at hs
    · cases hs
    · simp only [] at hs
      split at hs
      · rename_i he
        split at hs
        · rename_i d hd
          cases hs
          split
          · exact lightTop_call he h _ _ (by simp [w])
          · exact lightTop_of (light_inEnv he h)
        · cases hs
      · cases hs
  | recv bs =>
    unfold Conf.step at hs
    split at hs
    · cases hs
    · simp only [] at hs
      split at hs
      · rename_i he
        split at hs
        · cases hs; exact lightTop_of (light_inEnv he h)
        · cases hs
      · cases hs
  | init =>
    unfold Conf.step at hs; split at hs; · cases hs
    simp only [] at hs; split at hs
    · rename_i he; cases hs; exact lightTop_of (light_inEnv he h)
    · cases hs
  | readParams =>
    unfold Conf.step at hs; split at hs; · cases hs
    simp only [] at hs; split at hs
    · rename_i he; cases hs; exact lightTop_of (light_inEnv he h)
    · cases hs
  | setParam n v =>
    unfold Conf.step at hs; split at hs; · cases hs
    simp only [] at hs; split at hs
    · rename_i he; cases hs; exact lightTop_of (light_inEnv he h)
    · cases hs
  | readDecoded d =>
    unfold Conf.step at hs; split at hs; · cases hs
    simp only [] at hs; split at hs
    · rename_i he; cases hs; exact lightTop_of (light_inEnv he h)
    · cases hs

theorem lightTop_reach {allowed : Conf → Label → Prop} {s : Conf} (h : Reach allowed s) : LightTop s := by
  induction h with
  | start => exact ⟨by simp [seg, weight], trivial⟩
  | step s s' l _ _ hs ih => exact lightTop_step ih hs

/-! ### Depth and calls -/

theorem count_append (a b : List Instr) : (a ++ b).count .env = a.count .env + b.count .env := List.count_append

/-- What an instruction pushes: control goes to foreign code first, if at all, and once. -/
theorem exec_push (k : Nat) (i : Instr) (hi : i ≠ .env) (c : Conn) :
    (exec k i c).2.count .env = 0 ∨ (∃ tl, (exec k i c).2 = .env :: tl ∧ tl.count .env = 0 ∧
      (i = .sendHeaders ∧ (∃ r, (exec k i c).1.log = c.log ++ [.ready r]) ∨ (exec k i c).1.st = .completed ∨ (exec k i c).1.st = .closed ∨ i = .flush ∧ (exec k i c).1.st = c.st ∧ (exec k i c).1.log = c.log)) := by
  cases i <;> simp only [exec]
  case env => exact absurd rfl hi
  case processInput =>
    left
    unfold Conn.processInput
    split
    · rfl
    · split
      · rfl
      · simp only []
        split
        · split
          · rfl
          · split <;> rfl
        · split <;> rfl
  case recvContent =>
    left
    unfold Conn.recvContent
    split
    · rfl
    · simp only []
      split
      · rfl
      · split
        · rfl
        · split <;> rfl
  case sendHeaders =>
    unfold Conn.sendHeaders
    split
    · exact .inl rfl
    · refine .inr ⟨[], rfl, rfl, .inl ⟨trivial, ?_⟩⟩
      simp only [Conn.emit]
      split <;> exact ⟨_, rfl⟩
  case sendContent =>
    left
    unfold Conn.sendContent
    split
    · rfl
    · simp only []
      split
      · rfl
      · split <;> rfl
  case sendContentRest => exact .inl rfl
  case completed =>
    unfold Conn.complete
    split
    · exact .inl rfl
    · exact .inr ⟨[.completedRest], rfl, rfl, .inr (.inl rfl)⟩
  case completedRest => left; unfold Conn.completedRest; simp only []; split <;> rfl
  case completedRest2 => exact .inl rfl
  case flush =>
    unfold Conn.flush
    split
    · exact .inl rfl
    · split
      · exact .inr ⟨[], rfl, rfl, .inr (.inr (.inr ⟨trivial, rfl, rfl⟩))⟩
      · exact .inl rfl
  case drain => left; unfold Conn.drain; split <;> rfl
  case drainRest => left; unfold Conn.drainRest; split <;> (try split) <;> rfl
  case flushing => left; unfold Conn.toFlushing; split <;> rfl
  case flushingRest => left; unfold Conn.flushingRest; split <;> (try split) <;> rfl
  case closed f =>
    unfold Conn.toClosed
    split
    · exact .inl rfl
    · exact .inr ⟨[.closedRest], rfl, rfl, .inr (.inr (.inl rfl))⟩
  case closedRest => exact .inl rfl
  case errorResponse code => left; unfold Conn.errorResponse; split <;> rfl
  case writeResponse s hs ct => left; unfold Conn.writeResponse; split <;> rfl
  case writeResponseRest ct =>
    left; unfold Conn.writeResponseRest
    split
    · rfl
    · simp only []; split <;> rfl
  case writeHeaders s hs =>
    left; unfold Conn.writeHeaders
    split
    · rfl
    · simp only []; split <;> rfl
  case writeContent ct =>
    left
    unfold Conn.writeContent
    split
    · rfl
    · split
      · rfl
      · split
        · rfl
        · split
          · simp only []
            split
            · rfl
            · split <;> split <;> rfl
          · rfl
  case endContent =>
    left
    unfold Conn.endContent
    split
    · rfl
    · split <;> rfl

/-- The calls that have not come back: every frame of foreign code stands on one, and the code being executed belongs to one. -/
def open_ (l : List Instr) : Nat := l.count .env + (match l with | [] => 0 | .env :: _ => 0 | _ => 1)

theorem open_le (l : List Instr) : open_ l ≤ l.count .env + 1 := by unfold open_; split <;> omega
theorem le_open (l : List Instr) : l.count .env ≤ open_ l := by unfold open_; omega
theorem open_cons {i : Instr} (h : i ≠ .env) (l : List Instr) : open_ (i :: l) = l.count .env + 1 := by
  unfold open_
  split
  · rename_i e; cases e
  · rename_i e; cases e; exact absurd rfl h
  · rw [List.count_cons_of_ne (by exact h)]
theorem open_inEnv {s : Conf} (he : s.inEnv = true) : open_ s.stack = s.stack.count .env := by
  rcases (inEnv_iff s).1 he with e | ⟨rest, e⟩ <;> rw [e] <;> rfl

theorem tau_open {s s' : Conf} {k : Nat} (hs : s.step (.tau k) = some s') : open_ s'.stack ≤ open_ s.stack := by
  obtain ⟨i, rest, e1, e2, rfl⟩ := step_tau hs
  rw [e1, open_cons e2]
  show open_ ((exec k i s.c).2 ++ rest) ≤ _
  rcases exec_push k i e2 s.c with h | ⟨tl, h1, h2, -⟩
  · have := open_le ((exec k i s.c).2 ++ rest)
    rw [count_append, h] at this
    omega
  · rw [h1]
    show (Instr.env :: (tl ++ rest)).count .env + 0 ≤ _
    rw [List.count_cons_self, count_append, h2]; omega

theorem ret_open {s s' : Conf} (hs : s.step .ret = some s') : open_ s'.stack ≤ open_ s.stack := by
  obtain ⟨rest, e, rfl⟩ := step_ret hs
  rw [e]
  show open_ rest ≤ (Instr.env :: rest).count .env + 0
  rw [List.count_cons_self]
  have := open_le rest; omega

theorem one {c : Conn} {s s' : Conf} (hs : (if s.inEnv = true then some (⟨c, s.stack⟩ : Conf) else none) = some s') : s'.stack = s.stack ∧ s.inEnv = true := by
  split at hs
  · rename_i he; cases hs; exact ⟨rfl, he⟩
  · cases hs

theorem same_stack {s s' : Conf} {l : Label} (hs : s.step l = some s') (h1 : ∀ k, l ≠ .tau k) (h2 : l ≠ .ret) (h3 : ∀ a, l ≠ .call a) (h4 : ∀ k, l ≠ .bytesWritten k) :
    s'.stack = s.stack ∧ s.inEnv = true := by
  unfold Conf.step at hs
  split at hs
  · cases hs
  · cases l with
    | tau k => exact absurd rfl (h1 k)
    | ret => exact absurd rfl h2
    | call a => exact absurd rfl (h3 a)
    | bytesWritten k => exact absurd rfl (h4 k)
    | recv bs =>
      simp only [] at hs
      split at hs
      · rename_i he
        split at hs
        · cases hs; exact ⟨rfl, he⟩
        · cases hs
      · cases hs
    | init => simp only [] at hs; exact one hs
    | readParams => simp only [] at hs; exact one hs
    | setParam n v => simp only [] at hs; exact one hs
    | readDecoded d => simp only [] at hs; exact one hs

theorem call_stack {s s' : Conf} {l : Label} (hs : s.step l = some s') (h : (∃ a, l = .call a) ∨ ∃ k, l = .bytesWritten k) :
    s.inEnv = true ∧ (s'.stack = s.stack ∨ ∃ i, i ≠ .env ∧ s'.stack = i :: s.stack) := by
  unfold Conf.step at hs
  split at hs
  · cases hs
  · rcases h with ⟨a, rfl⟩ | ⟨k, rfl⟩
    · simp only [] at hs
      split at hs
      · rename_i he; cases hs; exact ⟨he, .inr ⟨_, by cases a <;> simp [Call.instr], rfl⟩⟩
      · cases hs
    · simp only [] at hs
      split at hs
      · rename_i he
        split at hs
        · cases hs
          refine ⟨he, ?_⟩
          simp only []
          split
          · exact .inr ⟨.drain, by simp, rfl⟩
          · exact .inl rfl
        · cases hs
      · cases hs

theorem open_calls {s : Conf} {n : Nat} {t : Conf} (h : Calls s n t) : open_ t.stack ≤ open_ s.stack + n := by
  induction h with
  | refl => exact Nat.le_refl _
  | call t u n l _ hl hs ih =>
    obtain ⟨he, e | ⟨i, hi, e⟩⟩ := call_stack hs hl
    · rw [e]; omega
    · rw [e, open_cons hi, ← open_inEnv he]; omega
  | other t u n l _ h1 h2 hs ih =>
    by_cases hk : ∃ k, l = .tau k
    · obtain ⟨k, rfl⟩ := hk; exact Nat.le_trans (tau_open hs) ih
    · by_cases hr : l = .ret
      · subst hr; exact Nat.le_trans (ret_open hs) ih
      · rw [(same_stack hs (fun k e => hk ⟨k, e⟩) hr h1 h2).1]; exact ih

/-! ### Slots that only answer -/

/-- A response can be written. -/
def sending (st : CState) : Nat := if st = .sendingHeaders ∨ st = .sendingContent then 1 else 0

theorem sending_le (st : CState) : sending st ≤ 1 := by unfold sending; split <;> omega

/-- `r0` requests had been handed out when the event loop was last in control. -/
structure Nest (r0 : Nat) (s : Conf) : Prop where
  env : s.stack.head? = some .env → s.stack.count .env + sending s.c.st + r0 ≤ (readys s.c.log).length + 2
  own : s.stack.head? ≠ some .env → s.stack.count .env + r0 ≤ (readys s.c.log).length + 1 ∨
    (sending s.c.st = 0 ∧ s.stack.count .env + r0 ≤ (readys s.c.log).length + 2 ∧ ∃ a rest, Answering a ∧ s.stack = Call.instr a :: .env :: rest)
  flush : ∀ rest, s.stack = .flush :: rest → rest = [] ∨ ∃ i r, rest = i :: r ∧ i.sens = true

theorem nest_start {s : Conf} (h : s.stack = []) : Nest (readys s.c.log).length s where
  env := by rw [h]; simp
  own := fun _ => .inl (by rw [h]; simp)
  flush := by rw [h]; simp

theorem readys_exec (k : Nat) (i : Instr) (c : Conn) : (readys c.log).length ≤ (readys (exec k i c).1.log).length := by
  rcases exec_log k i c with h | ⟨e, h, -⟩
  · rw [h]; exact Nat.le_refl _
  · rw [h, readys_snoc, List.length_append]; omega

theorem inert {a : Call} (ha : Answering a) (k : Nat) {c : Conn} (h : sending c.st = 0) : exec k a.instr c = (c, []) := by
  have h1 : c.st ≠ .sendingHeaders := fun e => by rw [e] at h; simp [sending] at h
  have h2 : c.st ≠ .sendingContent := fun e => by rw [e] at h; simp [sending] at h
  cases a <;> simp only [Answering] at ha <;> simp [Call.instr, exec, Conn.writeResponse, Conn.writeHeaders, Conn.writeContent, Conn.endContent, h1, h2]

/-- `flush` is only pushed in front of the rest of the code that needs it. -/
theorem exec_flush (k : Nat) (i : Instr) (c : Conn) {rest : List Instr} (h : (exec k i c).2 = .flush :: rest) : ∃ x r, rest = x :: r ∧ x.sens = true := by
  cases i <;> simp only [exec] at h
  case env => cases h
  case processInput =>
    unfold Conn.processInput at h
    repeat' (first | split at h | (simp only [] at h; split at h))
    all_goals cases h
  case recvContent =>
    unfold Conn.recvContent at h
    repeat' (first | split at h | (simp only [] at h; split at h))
    all_goals cases h
  case sendHeaders => unfold Conn.sendHeaders at h; split at h <;> cases h
  case sendContent =>
    unfold Conn.sendContent at h
    repeat' (first | split at h | (simp only [] at h; split at h))
    all_goals cases h
  case sendContentRest => cases h
  case completed => unfold Conn.complete at h; split at h <;> cases h
  case completedRest =>
    unfold Conn.completedRest at h
    simp only [] at h
    split at h <;> cases h
    exact ⟨_, _, rfl, rfl⟩
  case completedRest2 => cases h
  case flush =>
    unfold Conn.flush at h
    split at h
    · cases h
    · split at h <;> cases h
  case drain =>
    unfold Conn.drain at h
    split at h <;> cases h
    exact ⟨_, _, rfl, rfl⟩
  case drainRest =>
    unfold Conn.drainRest at h
    split at h
    · cases h
    · split at h <;> cases h
  case flushing => unfold Conn.toFlushing at h; split at h <;> cases h
  case flushingRest =>
    unfold Conn.flushingRest at h
    split at h
    · split at h <;> cases h
    · cases h
  case closed f => unfold Conn.toClosed at h; split at h <;> cases h
  case closedRest => cases h
  case errorResponse code => unfold Conn.errorResponse at h; split at h <;> cases h
  case writeResponse s hs ct => unfold Conn.writeResponse at h; split at h <;> cases h
  case writeResponseRest ct =>
    unfold Conn.writeResponseRest at h
    repeat' (first | split at h | (simp only [] at h; split at h))
    all_goals cases h
  case writeHeaders s hs =>
    unfold Conn.writeHeaders at h
    repeat' (first | split at h | (simp only [] at h; split at h))
    all_goals cases h
  case writeContent ct =>
    unfold Conn.writeContent at h
    repeat' (first | split at h | (simp only [] at h; split at h))
    all_goals cases h
  case endContent =>
    unfold Conn.endContent at h
    repeat' (first | split at h | (simp only [] at h; split at h))
    all_goals cases h

/-- The code below the top is never a `flush`. -/
theorem exposed_flush {l rest r : List Instr} (hf : ∀ i ∈ rest, i.frame = true) (h : l ++ rest = .flush :: r) : ∃ l', l = .flush :: l' := by
  cases l with
  | nil =>
    rw [List.nil_append] at h
    have := hf .flush (by rw [h]; simp)
    cases this
  | cons i l => rw [List.cons_append] at h; cases h; exact ⟨l, rfl⟩

/-- When a response is being sent, the code that flushes is the event loop's. -/
theorem flush_quiet {lo : Bool} {c : Conn} {rest : List Instr} (hc : Core lo c (.flush :: rest)) (h : rest = [] ∨ ∃ i r, rest = i :: r ∧ i.sens = true) :
    rest = [] ∨ sending c.st = 0 := by
  rcases h with h | ⟨i, r, rfl, hi⟩
  · exact .inl h
  · right
    have := hc.sens
    rw [List.head?_cons, List.filter_cons, if_neg (by simp [Instr.sens]), List.filter_cons, if_pos hi] at this
    unfold sending
    rw [if_neg]
    rintro (e | e) <;> rw [e] at this <;> simp [sensOk] at this

theorem nest_step {r0 : Nat} {s s' : Conf} {l : Label} (hr : Reach Gentle s) (hn : Nest r0 s) (hr0 : r0 ≤ (readys s.c.log).length) (ha : SlotsAnswer s l) (hs : s.step l = some s') :
    Nest r0 s' ∧ r0 ≤ (readys s'.c.log).length := by
  have hfault : s.c.fault = none := by
    unfold Conf.step at hs
    split at hs
    · cases hs
    · rename_i h; simpa using h
  have hcore : Core false s.c s.stack := by
    rcases inv_reach (lo := false) hr with h | ⟨h, -⟩
    · exact h
    · rw [hfault] at h; cases h
  cases l with
  | tau k =>
    obtain ⟨i, rest, e1, e2, rfl⟩ := step_tau hs
    rw [e1] at hcore
    have hrd := readys_exec k i s.c
    have hfr := hcore.rest_frames
    refine ⟨?_, Nat.le_trans hr0 hrd⟩
    have hown := hn.own (by rw [e1]; simpa using e2)
    have hflush : ∀ r, (exec k i s.c).2 ++ rest = .flush :: r → r = [] ∨ ∃ j r', r = j :: r' ∧ j.sens = true := by
      intro r h
      obtain ⟨l', hl'⟩ := exposed_flush hfr h
      obtain ⟨x, r', rfl, hx⟩ := exec_flush k i s.c hl'
      rw [hl'] at h
      cases h
      exact .inr ⟨x, r' ++ rest, rfl, hx⟩
    have hcnt : s.stack.count .env = rest.count .env := by rw [e1, List.count_cons_of_ne (by exact e2)]
    have hs1 := sending_le (exec k i s.c).1.st
    rcases hown with h1 | ⟨h0, h1, a, rest', ha', h2⟩
    · rw [hcnt] at h1
      rcases exec_push k i e2 s.c with hp | ⟨tl, hp, htl, hcase⟩
      · have hc : ((exec k i s.c).2 ++ rest).count .env = rest.count .env := by rw [count_append, hp, Nat.zero_add]
        exact ⟨fun _ => by show ((exec k i s.c).2 ++ rest).count .env + _ + _ ≤ _; rw [hc]; simp only; omega,
          fun _ => .inl (by show ((exec k i s.c).2 ++ rest).count .env + _ ≤ _; rw [hc]; simp only; omega), hflush⟩
      · have hc : ((exec k i s.c).2 ++ rest).count .env = rest.count .env + 1 := by
          rw [hp, List.cons_append, List.count_cons_self, count_append, htl, Nat.zero_add]
        refine ⟨fun _ => ?_, fun hne => absurd (by rw [hp]; rfl) hne, hflush⟩
        show ((exec k i s.c).2 ++ rest).count .env + sending (exec k i s.c).1.st + r0 ≤ (readys (exec k i s.c).1.log).length + 2
        rw [hc]
        rcases hcase with ⟨-, r, hlog⟩ | hst | hst | ⟨hi, hst, hlog⟩
        · rw [hlog, readys_snoc, List.length_append]
          have : (Ev.request (.ready r)).toList.length = 1 := rfl
          omega
        · have : sending (exec k i s.c).1.st = 0 := by rw [hst]; rfl
          omega
        · have : sending (exec k i s.c).1.st = 0 := by rw [hst]; rfl
          omega
        · subst hi
          rcases flush_quiet hcore (hn.flush rest e1) with h | h
          · subst h; simp only [List.count_nil]; omega
          · rw [← hst] at h; omega
    · rw [h2] at e1
      cases e1
      have he := inert ha' k h0
      rw [he] at hflush ⊢
      rw [h2, List.count_cons_of_ne (by exact e2)] at h1
      refine ⟨fun _ => ?_, fun hne => absurd rfl hne, hflush⟩
      show (Instr.env :: rest').count .env + sending s.c.st + r0 ≤ (readys s.c.log).length + 2
      omega
  | ret =>
    obtain ⟨rest, e, rfl⟩ := step_ret hs
    refine ⟨?_, hr0⟩
    have h1 := hn.env (by rw [e]; rfl)
    rw [e, List.count_cons_self] at h1
    rw [e] at hcore
    have hfr := hcore.rest_frames
    have := sending_le s.c.st
    refine ⟨fun _ => by simp only; omega, fun _ => .inl (by simp only; omega), fun r hr => ?_⟩
    have hr : rest = .flush :: r := hr
    have := hfr .flush (by rw [hr]; simp)
    cases this
  | call a =>
    have he : s.inEnv = true ∧ s' = ⟨s.c, a.instr :: s.stack⟩ := by
      unfold Conf.step at hs
      split at hs
      · cases hs
      · simp only [] at hs
        split at hs
        · rename_i he; cases hs; exact ⟨he, rfl⟩
        · cases hs
    obtain ⟨he, rfl⟩ := he
    refine ⟨?_, hr0⟩
    have hne : a.instr ≠ .env := by cases a <;> simp [Call.instr]
    rcases (inEnv_iff s).1 he with e | ⟨rest, e⟩
    · rw [e]
      refine ⟨fun h => absurd (by simpa using h) hne, fun _ => .inl ?_, fun r h => ?_⟩
      · show [a.instr].count .env + r0 ≤ _
        rw [List.count_cons_of_ne (by exact hne)]; simp only [List.count_nil]; omega
      · have h2 := (List.cons.inj h).2; exact .inl h2.symm
    · have hans := (ha.2 (by rw [e]; simp)).1 a rfl
      have h1 := hn.env (by rw [e]; rfl)
      refine ⟨fun h => absurd (by simpa using h) hne, fun _ => ?_, fun r h => ?_⟩
      · have hc : (a.instr :: s.stack).count .env = s.stack.count .env := List.count_cons_of_ne (by exact hne)
        by_cases h0 : sending s.c.st = 0
        · exact .inr ⟨h0, by show (a.instr :: s.stack).count .env + r0 ≤ _; rw [hc]; simp only; omega, a, rest, hans, by rw [e]⟩
        · exact .inl (by show (a.instr :: s.stack).count .env + r0 ≤ _; rw [hc]; simp only; omega)
      · cases a <;> simp only [Answering] at hans <;> cases h
  | bytesWritten k =>
    have hnil : s.stack = [] := by
      by_cases h : s.stack = []
      · exact h
      · exact absurd rfl ((ha.2 h).2 k)
    unfold Conf.step at hs
    split at hs
    · cases hs
    · simp only [] at hs
      split at hs
      · split at hs
        · cases hs
          refine ⟨?_, hr0⟩
          rw [hnil]
          split
          · exact ⟨fun h => by simp at h, fun _ => .inl (by simp; omega), fun r h => by cases h⟩
          · exact ⟨fun h => by simp at h, fun _ => .inl (by simp; omega), fun r h => by cases h⟩
        · cases hs
      · cases hs
  | recv bs =>
    unfold Conf.step at hs
    split at hs
    · cases hs
    · simp only [] at hs
      split at hs
      · split at hs
        · cases hs
          have : readys (s.c.log ++ [.recv bs]) = readys s.c.log := by rw [readys_snoc]; simp [Ev.request]
          simp only [Conn.emit]
          exact ⟨⟨by simpa only [this] using hn.env, by simpa only [this] using hn.own, hn.flush⟩, by simpa only [this] using hr0⟩
        · cases hs
      · cases hs
  | init =>
    have hnil := (ha.1.1 rfl).1
    unfold Conf.step at hs
    split at hs
    · cases hs
    · simp only [] at hs
      split at hs
      · cases hs
        have hl : (readys s.c.log).length ≤ (readys s.c.initialize.log).length := by
          have : s.c.initialize.log = s.c.log ++ [.init] := by
            unfold Conn.initialize Conn.emit Conn.toReceivingHeaders
            simp only []
            split <;> rfl
          rw [this, readys_snoc, List.length_append]; omega
        refine ⟨?_, Nat.le_trans hr0 hl⟩
        rw [hnil]
        exact ⟨fun h => by simp at h, fun _ => .inl (by simp; omega), fun r h => by cases h⟩
      · cases hs
  | readParams =>
    unfold Conf.step at hs; split at hs; · cases hs
    simp only [] at hs; split at hs
    · cases hs
      have h1 : s.c.requestParams.st = s.c.st := by unfold Conn.requestParams; split <;> rfl
      have h2 : s.c.requestParams.log = s.c.log := by unfold Conn.requestParams; split <;> rfl
      exact ⟨⟨by simpa only [h1, h2] using hn.env, by simpa only [h1, h2] using hn.own, hn.flush⟩, by simpa only [h2] using hr0⟩
    · cases hs
  | setParam n v =>
    unfold Conf.step at hs; split at hs; · cases hs
    simp only [] at hs; split at hs
    · cases hs
      have h1 : (s.c.setRequestParam n v).st = s.c.st := by unfold Conn.setRequestParam Conn.requestParams; split <;> rfl
      have h2 : (s.c.setRequestParam n v).log = s.c.log := by unfold Conn.setRequestParam Conn.requestParams; split <;> rfl
      exact ⟨⟨by simpa only [h1, h2] using hn.env, by simpa only [h1, h2] using hn.own, hn.flush⟩, by simpa only [h2] using hr0⟩
    · cases hs
  | readDecoded d =>
    unfold Conf.step at hs; split at hs; · cases hs
    simp only [] at hs; split at hs
    · cases hs
      have h1 : (s.c.readDecoded d).st = s.c.st := by cases d <;> unfold Conn.readDecoded <;> simp only [] <;> split <;> rfl
      have h2 : (s.c.readDecoded d).log = s.c.log := by cases d <;> unfold Conn.readDecoded <;> simp only [] <;> split <;> rfl
      exact ⟨⟨by simpa only [h1, h2] using hn.env, by simpa only [h1, h2] using hn.own, hn.flush⟩, by simpa only [h2] using hr0⟩
    · cases hs

theorem nest_later {s t : Conf} (h : Later SlotsAnswer s t) (hr : Reach Gentle s) (hs : s.stack = []) :
    Reach Gentle t ∧ Nest (readys s.c.log).length t ∧ (readys s.c.log).length ≤ (readys t.c.log).length := by
  induction h with
  | refl => exact ⟨hr, nest_start hs, Nat.le_refl _⟩
  | step t u l _ ha hst ih =>
    obtain ⟨h1, h2, h3⟩ := ih
    have := nest_step h1 h2 h3 ha hst
    exact ⟨.step t u l h1 ha.1 hst, this.1, this.2⟩

theorem nest_depth {r0 : Nat} {s : Conf} (h : Nest r0 s) : s.stack.count .env + r0 ≤ (readys s.c.log).length + 2 := by
  by_cases he : s.stack.head? = some .env
  · have := h.env he; omega
  · rcases h.own he with h | ⟨-, h, -⟩ <;> omega

end Pillow.Depth
