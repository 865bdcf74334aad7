import Verif.Lemmas.ConnZombie
import Verif.Lemmas.LogStep
set_option linter.unusedSimpArgs false
set_option linter.unusedVariables false
/-!
# When the null device is used

Closing while `requestCompleted` is being handled leads to a use of the null device exactly when the response keeps the
connection alive.
-/
namespace Pillow.Doom
open Pillow Pillow.Spec

/-- The continuations of `transitionToCompleted`. -/
def _root_.Pillow.Instr.after : Instr → Bool
  | .completedRest | .completedRest2 => true
  | _ => false

/-- The rest of `transitionToSendingContent` never waits above a continuation of `transitionToCompleted`. -/
def Ordered (stack : List Instr) : Prop := ∀ a x b, stack = a ++ x :: b → x.after = true → .sendContentRest ∉ a

theorem write_keep (c : Conn) (e : Ev) : (c.write e).keepAlive = c.keepAlive ∧ (c.write e).st = c.st ∧ (c.write e).viewsValid = c.viewsValid := by
  unfold Conn.write; split <;> exact ⟨rfl, rfl, rfl⟩

theorem readView_keep (c : Conn) : c.readView.keepAlive = c.keepAlive ∧ c.readView.st = c.st ∧ c.readView.viewsValid = c.viewsValid := by
  unfold Conn.readView; split <;> exact ⟨rfl, rfl, rfl⟩

theorem exec_push (k : Nat) (i : Instr) (c : Conn) :
    (.sendContentRest ∈ (exec k i c).2 → i = .sendContent) ∧
    (∀ x ∈ (exec k i c).2, x.after = true → (i = .completed ∧ (exec k i c).2 = [.env, .completedRest]) ∨ (i = .completedRest ∧ c.keepAlive = true ∧ (exec k i c).2 = [.flush, .completedRest2])) := by
  cases i with
  | processInput =>
    show _ ∧ _
    simp only [exec, Conn.processInput]
    split
    · simp
    · split
      · simp
      · split <;> (try split) <;> (try split) <;> simp [Instr.after]
  | recvContent =>
    simp only [exec, Conn.recvContent]
    split <;> (try split) <;> (try split) <;> (try split) <;> simp [Instr.after]
  | sendHeaders => simp only [exec, Conn.sendHeaders]; split <;> simp [Instr.after]
  | sendContent => simp only [exec, Conn.sendContent]; split <;> (try split) <;> (try split) <;> simp [Instr.after]
  | completed => simp only [exec, Conn.complete]; split <;> simp [Instr.after]
  | completedRest => simp only [exec, Conn.completedRest]; split <;> simp_all [Instr.after]
  | completedRest2 => simp [exec, Conn.completedRest2, Instr.after]
  | flush => simp only [exec, Conn.flush]; split <;> (try split) <;> simp [Instr.after]
  | drain => simp only [exec, Conn.drain]; split <;> simp [Instr.after]
  | drainRest => simp only [exec, Conn.drainRest]; split <;> (try split) <;> simp [Instr.after]
  | flushing => simp only [exec, Conn.toFlushing]; split <;> simp [Instr.after]
  | flushingRest => simp only [exec, Conn.flushingRest]; split <;> (try split) <;> simp [Instr.after]
  | closed f => simp only [exec, Conn.toClosed]; split <;> simp [Instr.after]
  | closedRest => simp [exec, Conn.closedRest]
  | errorResponse code => simp only [exec, Conn.errorResponse]; split <;> simp [Instr.after]
  | writeResponse s hs ct => simp only [exec, Conn.writeResponse]; split <;> simp [Instr.after]
  | writeResponseRest ct => simp only [exec, Conn.writeResponseRest]; split <;> (try split) <;> simp [Instr.after]
  | writeHeaders s hs => simp only [exec, Conn.writeHeaders]; split <;> (try split) <;> simp [Instr.after]
  | writeContent ct => simp only [exec, Conn.writeContent]; split <;> (try split) <;> (try split) <;> (try split) <;> (try split) <;> (try split) <;> (try split) <;> simp [Instr.after]
  | endContent => simp only [exec, Conn.endContent]; split <;> (try split) <;> simp [Instr.after]
  | env => simp [exec]
  | sendContentRest => simp [exec, Conn.sendContentRest]

/-- What an instruction does to the members that matter here. -/
structure Keeps (i : Instr) (c c' : Conn) : Prop where
  keep : c'.keepAlive = c.keepAlive ∨ (i = .sendHeaders ∧ c'.st = .sendingHeaders) ∨ (i = .sendContentRest ∧ c'.keepAlive = false) ∨
    (c.st = .sendingHeaders ∧ c'.st = .sendingHeaders) ∨ (c.st = .sendingContent ∧ c'.st = .sendingContent)
  completed : c'.st = .completed → c.st = .completed ∨ i = .completed
  views : c'.viewsValid = false → c.viewsValid = false ∨ i = .completedRest
  receiving : c'.st = .receivingHeaders → c.st = .receivingHeaders ∨ i = .completedRest2

theorem Keeps.refl (i : Instr) (c : Conn) : Keeps i c c := ⟨.inl rfl, .inl, .inl, .inl⟩

theorem Keeps.of {i : Instr} {c c' : Conn} (h : c'.keepAlive = c.keepAlive ∧ c'.st = c.st ∧ c'.viewsValid = c.viewsValid) : Keeps i c c' :=
  ⟨.inl h.1, by rw [h.2.1]; exact .inl, by rw [h.2.2]; exact .inl, by rw [h.2.1]; exact .inl⟩

theorem fill_keep (c : Conn) (d : Dev) : (c.fill d).keepAlive = c.keepAlive ∧ (c.fill d).st = c.st ∧ (c.fill d).viewsValid = c.viewsValid := ⟨rfl, rfl, rfl⟩
theorem parse_keep (c : Conn) : c.parse.keepAlive = c.keepAlive ∧ c.parse.st = c.st ∧ c.parse.viewsValid = c.viewsValid := ⟨rfl, rfl, rfl⟩

theorem exec_kept (k : Nat) (i : Instr) (c : Conn) : Keeps i c (exec k i c).1 := by
  cases i with
  | env => exact .refl _ _
  | processInput =>
    simp only [exec, Conn.processInput]
    split
    · exact .refl _ _
    · split
      · exact .of ⟨rfl, rfl, rfl⟩
      · split <;> (try split) <;> (try split) <;> exact .of ⟨rfl, rfl, rfl⟩
  | recvContent =>
    simp only [exec, Conn.recvContent]
    split
    · exact .refl _ _
    · split
      · exact ⟨.inl rfl, by simp [Conn.setup], .inl, by simp [Conn.setup]⟩
      split
      · exact ⟨.inl rfl, by simp [Conn.setup], .inl, by simp [Conn.setup]⟩
      split
      · dsimp only
        split
        · refine ⟨.inl ?_, fun e => ?_, fun e => ?_, fun e => ?_⟩
          · exact (write_keep _ _).1
          · rw [show Conn.st { Conn.write _ _ with hdrN := _, hdrValid := false } = _ from (write_keep _ _).2.1] at e; cases e
          · rw [show Conn.viewsValid { Conn.write _ _ with hdrN := _, hdrValid := false } = _ from (write_keep _ _).2.2] at e; exact .inl e
          · rw [show Conn.st { Conn.write _ _ with hdrN := _, hdrValid := false } = _ from (write_keep _ _).2.1] at e; cases e
        · exact ⟨.inl rfl, by simp [Conn.setup], .inl, by simp [Conn.setup]⟩
      · exact ⟨.inl rfl, by simp [Conn.setup], .inl, by simp [Conn.setup]⟩
  | sendHeaders =>
    simp only [exec, Conn.sendHeaders]
    split
    · exact .refl _ _
    · have e : ∀ c' : Conn, ((if c'.hdrN ≠ c'.refs.length then c'.setup else c')).st = c'.st := by intro c'; split <;> rfl
      refine ⟨.inr (.inl ⟨rfl, ?_⟩), fun h => ?_, fun h => by simp [Conn.emit] at h, fun h => ?_⟩
      · exact e { c with st := .sendingHeaders }
      · have := h.symm.trans (e { c with st := .sendingHeaders }); cases this
      · have := h.symm.trans (e { c with st := .sendingHeaders }); cases this
  | sendContent =>
    simp only [exec, Conn.sendContent]
    split
    · exact .refl _ _
    · split
      · exact ⟨.inl rfl, by simp, .inl, by simp⟩
      · obtain ⟨h1, h2, h3⟩ := readView_keep { c with st := .sendingContent, respBuf := [] }
        split <;> exact ⟨.inl h1, by rw [h2]; simp, by rw [h3]; exact .inl, by rw [h2]; simp⟩
  | sendContentRest =>
    simp only [exec, Conn.sendContentRest]
    split
    · exact ⟨.inr (.inr (.inl ⟨rfl, rfl⟩)), .inl, .inl, .inl⟩
    · exact .refl _ _
  | completed =>
    simp only [exec, Conn.complete]
    split
    · exact .refl _ _
    · exact ⟨.inl rfl, fun _ => .inr rfl, .inl, by simp [Conn.emit]⟩
  | completedRest =>
    simp only [exec, Conn.completedRest]
    split <;> exact ⟨.inl rfl, .inl, fun _ => .inr rfl, .inl⟩
  | completedRest2 =>
    simp only [exec, Conn.completedRest2, Conn.toReceivingHeaders]
    split
    · exact .refl _ _
    · exact ⟨.inl rfl, by simp, .inl, fun _ => .inr rfl⟩
  | flush => simp only [exec, Conn.flush]; split <;> (try split) <;> exact .of ⟨rfl, rfl, rfl⟩
  | drain => simp only [exec, Conn.drain]; split <;> exact .of ⟨rfl, rfl, rfl⟩
  | drainRest => simp only [exec, Conn.drainRest]; split <;> (try split) <;> exact .of ⟨rfl, rfl, rfl⟩
  | flushing => simp only [exec, Conn.toFlushing]; split; exact .refl _ _; exact ⟨.inl rfl, by simp, .inl, by simp⟩
  | flushingRest => simp only [exec, Conn.flushingRest]; split <;> (try split) <;> exact .of ⟨rfl, rfl, rfl⟩
  | closed f => simp only [exec, Conn.toClosed]; split; exact .refl _ _; exact ⟨.inl rfl, by simp [Conn.emit], .inl, by simp [Conn.emit]⟩
  | closedRest => exact .of ⟨rfl, rfl, rfl⟩
  | errorResponse code => simp only [exec, Conn.errorResponse]; split; exact .refl _ _; exact .of (write_keep _ _)
  | writeResponse s hs ct => simp only [exec, Conn.writeResponse]; split <;> exact .of ⟨rfl, rfl, rfl⟩
  | writeResponseRest ct => simp only [exec, Conn.writeResponseRest]; split; exact .refl _ _; split <;> exact .of (readView_keep _)
  | writeHeaders s hs =>
    simp only [exec, Conn.writeHeaders]
    split
    · exact .refl _ _
    · rename_i hst
      have hst : c.st = .sendingHeaders := Classical.not_not.1 hst
      obtain ⟨h1, h2, h3⟩ := readView_keep c
      split
      · exact .of ⟨h1, h2, h3⟩
      · rename_i h _
        obtain ⟨w1, w2, w3⟩ := write_keep { c.readView with status := s, respBuf := h.bytes, respLen := h.len, chunked := h.chunked, keepAlive := h.keepAlive } (.head h)
        refine ⟨.inr (.inr (.inr (.inl ⟨hst, w2.trans (h2.trans hst)⟩))), fun e => ?_, fun e => ?_, fun e => ?_⟩
        · have := (w2.trans (h2.trans hst)).symm.trans e; cases this
        · exact .inl ((w3.trans h3).symm.trans e)
        · have := (w2.trans (h2.trans hst)).symm.trans e; cases this
  | writeContent ct =>
    simp only [exec, Conn.writeContent]
    split
    · exact .refl _ _
    split
    · exact .refl _ _
    split
    · exact .refl _ _
    split
    · split
      · exact .of (readView_keep c)
      · have key : ∀ (x : Conn) e, x.keepAlive = c.readView.keepAlive → x.st = c.readView.st → x.viewsValid = c.readView.viewsValid → Keeps (.writeContent ct) c (x.write e) := by
          intro x e k1 k2 k3
          obtain ⟨h1, h2, h3⟩ := readView_keep c
          obtain ⟨w1, w2, w3⟩ := write_keep x e
          exact .of ⟨w1.trans (k1.trans h1), w2.trans (k2.trans h2), w3.trans (k3.trans h3)⟩
        generalize hx : (Conn.write _ _ : Conn) = x
        have : Keeps (.writeContent ct) c x := by rw [← hx]; exact key _ _ rfl rfl rfl
        split <;> exact this
    · exact .refl _ _
  | endContent =>
    simp only [exec, Conn.endContent]
    split
    · exact .refl _ _
    · rename_i hst
      have hst : c.st = .sendingContent := Classical.not_not.1 hst
      split
      · exact .refl _ _
      · dsimp only
        split
        · exact .of (write_keep _ _)
        · exact ⟨.inr (.inr (.inr (.inr ⟨hst, hst⟩))), by simp [hst], .inl, by simp [hst]⟩

theorem Ordered.tail {i : Instr} {rest : List Instr} (h : Ordered (i :: rest)) : Ordered rest := by
  intro a x b e hx hm
  exact h (i :: a) x b (by rw [e]; rfl) hx (List.mem_cons_of_mem _ hm)

theorem Ordered.cons {i : Instr} {rest : List Instr} (h : Ordered rest) (hi : i ≠ .sendContentRest) : Ordered (i :: rest) := by
  intro a x b e hx hm
  cases a with
  | nil => cases hm
  | cons y a =>
    obtain ⟨rfl, e2⟩ := List.cons.inj e
    rcases List.mem_cons.1 hm with e' | hm
    · exact hi e'.symm
    · exact h a x b e2 hx hm

theorem Ordered.push {l rest : List Instr} (h : Ordered rest) (hl : .sendContentRest ∉ l) : Ordered (l ++ rest) := by
  induction l with
  | nil => exact h
  | cons i l ih =>
    exact (ih (fun hm => hl (List.mem_cons_of_mem _ hm))).cons (fun e => hl (by rw [e]; simp))

/-- `sendContent` on top: nothing sensitive below. -/
theorem sendContent_clear {c : Conn} {rest : List Instr} (h : LInv c (.sendContent :: rest)) (hf : c.fault = none) : rest.filter Instr.sens = [] := by
  rcases h with h | h | h
  · obtain ⟨ph, -, hd⟩ := h.data
    have hst : c.st = .sendingHeaders := hd.1
    have := h.sens
    unfold sensOk at this
    rw [if_neg (by simp), hst] at this
    simpa [List.filter_cons, Instr.sens] using this
  · generalize hS : Instr.sendContent :: rest = st at h
    cases h with
    | z0 => cases hS
    | z1 _ _ _ _ _ _ hb => subst hS; have := hb _ rfl; cases this
    | zf => cases hS
    | z2 _ _ _ _ _ hb => subst hS; have := hb _ rfl; cases this
    | zp => cases hS
  · rw [Dead, hf] at h; cases h.1

theorem ordered_step {s s' : Conf} {l : Label} (hi : LInv s.c s.stack) (h : Ordered s.stack) (hs : s.step l = some s') : Ordered s'.stack := by
  unfold Conf.step at hs
  split at hs
  · cases hs
  rename_i hf
  cases l with
  | tau k =>
    simp only at hs
    split at hs
    · cases hs
    · cases hs
    · rename_i i rest hne heq
      simp only [Option.some.injEq] at hs
      subst hs
      rw [heq] at h hi
      obtain ⟨p1, p2⟩ := exec_push k i s.c
      by_cases hm : .sendContentRest ∈ (exec k i s.c).2
      · have := p1 hm
        subst this
        have hc := sendContent_clear hi (by simpa using hf)
        intro a x b e hx hma
        have hxm : x ∈ (exec k .sendContent s.c).2 ++ rest := by
          rw [show (exec k .sendContent s.c).2 ++ rest = a ++ x :: b from e]; simp
        rcases List.mem_append.1 hxm with hxm | hxm
        · rcases p2 x hxm hx with ⟨e, -⟩ | ⟨e, -⟩ <;> cases e
        · have : x ∈ rest.filter Instr.sens := List.mem_filter.2 ⟨hxm, by cases x <;> simp_all [Instr.after, Instr.sens]⟩
          rw [hc] at this; cases this
      · exact h.tail.push hm
  | call a =>
    simp only at hs
    split at hs
    · simp only [Option.some.injEq] at hs
      subst hs
      exact h.cons (by cases a <;> simp [Call.instr])
    · cases hs
  | ret =>
    simp only at hs
    split at hs
    · rename_i rest heq
      simp only [Option.some.injEq] at hs
      subst hs
      rw [heq] at h
      exact h.tail
    · cases hs
  | recv bs =>
    simp only at hs
    split at hs
    · split at hs
      · simp only [Option.some.injEq] at hs; subst hs; exact h
      · cases hs
    · cases hs
  | bytesWritten k =>
    simp only at hs
    split at hs
    · split at hs
      · simp only [Option.some.injEq] at hs
        subst hs
        show Ordered (if _ then _ else _)
        split
        · exact h.cons (by simp)
        · exact h
      · cases hs
    · cases hs
  | init | readParams | setParam _ _ | readDecoded _ =>
    simp only at hs
    split at hs
    · simp only [Option.some.injEq] at hs; subst hs; exact h
    · cases hs

theorem ordered_reach {s : Conf} (h : Reach Proper s) : Ordered s.stack := by
  induction h with
  | start => intro a x b e; simp at e
  | step s s' l hr hp hs ih => exact ordered_step (linv_reach hr) ih hs

theorem params_keep (c : Conn) : c.requestParams.keepAlive = c.keepAlive ∧ c.requestParams.st = c.st ∧ c.requestParams.viewsValid = c.viewsValid := by
  unfold Conn.requestParams; split <;> exact ⟨rfl, rfl, rfl⟩

theorem decoded_keep (c : Conn) (x : Decoded) : (c.readDecoded x).keepAlive = c.keepAlive ∧ (c.readDecoded x).st = c.st ∧ (c.readDecoded x).viewsValid = c.viewsValid := by
  cases x <;> simp only [Conn.readDecoded] <;> split <;> exact ⟨rfl, rfl, rfl⟩

/-- At most one event is added, and it is not a response head. -/
def Headless (a b : List Ev) : Prop := b = a ∨ ∃ e, (∀ h, e ≠ .head h) ∧ b = a ++ [e]

theorem Headless.rfl {a : List Ev} : Headless a a := .inl (Eq.refl a)

/-! ### Closing only when the response ends the connection -/

structure Harmless (s : Conf) : Prop where
  keep : s.c.keepAlive = false
  clear : .completedRest2 ∉ s.stack
  live : s.c.st ≠ .receivingHeaders

def PInv (s : Conf) : Prop := Core true s.c s.stack ∨ (Zombie s.c s.stack ∧ Harmless s) ∨ s.c.fault = some .overflow

/-- What the steps of foreign code leave alone. -/
theorem step_env {s s' : Conf} {l : Label} (hf : s.c.fault = none) (hs : s.step l = some s') (hl : ∀ k, l ≠ .tau k) (hi : l ≠ .init) :
    s'.c.keepAlive = s.c.keepAlive ∧ s'.c.st = s.c.st ∧ (∀ j ∈ s'.stack, j ∈ s.stack ∨ (∃ a : Call, j = a.instr)) := by
  unfold Conf.step at hs
  rw [hf] at hs
  simp only [Option.isSome_none, Bool.false_eq_true, ↓reduceIte] at hs
  cases l with
  | tau k => exact absurd rfl (hl k)
  | init => exact absurd rfl hi
  | call a =>
    simp only at hs
    split at hs
    · simp only [Option.some.injEq] at hs
      subst hs
      refine ⟨rfl, rfl, fun j hj => ?_⟩
      rcases List.mem_cons.1 hj with rfl | hj
      · exact .inr ⟨a, rfl⟩
      · exact .inl hj
    · cases hs
  | ret =>
    simp only at hs
    split at hs
    · rename_i rest heq
      simp only [Option.some.injEq] at hs
      subst hs
      exact ⟨rfl, rfl, fun j hj => .inl (by rw [heq]; exact List.mem_cons_of_mem _ hj)⟩
    · cases hs
  | recv bs =>
    simp only at hs
    split at hs
    · split at hs
      · simp only [Option.some.injEq] at hs; subst hs; exact ⟨rfl, rfl, fun j hj => .inl hj⟩
      · cases hs
    · cases hs
  | bytesWritten k =>
    simp only at hs
    split at hs
    · split at hs
      · rename_i d hd
        simp only [Option.some.injEq] at hs
        subst hs
        refine ⟨rfl, rfl, fun j hj => ?_⟩
        have hj : j ∈ (if d.drainConn = true then .drain :: s.stack else s.stack) := hj
        split at hj
        · rcases List.mem_cons.1 hj with rfl | hj
          · exact .inr ⟨.drain, rfl⟩
          · exact .inl hj
        · exact .inl hj
      · cases hs
    · cases hs
  | readParams =>
    simp only at hs
    split at hs
    · simp only [Option.some.injEq] at hs; subst hs
      exact ⟨(params_keep s.c).1, (params_keep s.c).2.1, fun j hj => .inl hj⟩
    · cases hs
  | setParam n v =>
    simp only at hs
    split at hs
    · simp only [Option.some.injEq] at hs; subst hs
      exact ⟨(params_keep s.c).1, (params_keep s.c).2.1, fun j hj => .inl hj⟩
    · cases hs
  | readDecoded x =>
    simp only at hs
    split at hs
    · simp only [Option.some.injEq] at hs; subst hs
      exact ⟨(decoded_keep s.c x).1, (decoded_keep s.c x).2.1, fun j hj => .inl hj⟩
    · cases hs

theorem step_plain {s s' : Conf} {l : Label} (hf : s.c.fault = none) (hs : s.step l = some s') (hl : ∀ k, l ≠ .tau k) (hi : l ≠ .init) : Headless s.c.log s'.c.log := by
  unfold Conf.step at hs
  rw [hf] at hs
  simp only [Option.isSome_none, Bool.false_eq_true, ↓reduceIte] at hs
  cases l with
  | tau k => exact absurd rfl (hl k)
  | init => exact absurd rfl hi
  | call a => dsimp only at hs; split at hs <;> cases hs; exact .rfl
  | ret => dsimp only at hs; split at hs <;> cases hs; exact .rfl
  | recv bs =>
    dsimp only at hs
    split at hs
    · split at hs <;> cases hs
      exact .inr ⟨.recv bs, by simp, rfl⟩
    · cases hs
  | bytesWritten k =>
    dsimp only at hs
    split at hs
    · split at hs <;> cases hs
      exact .rfl
    · cases hs
  | readParams =>
    dsimp only at hs
    split at hs <;> cases hs
    simp only [Conn.requestParams]; split <;> exact .rfl
  | setParam n v =>
    dsimp only at hs
    split at hs <;> cases hs
    simp only [Conn.setRequestParam, Conn.requestParams]; split <;> exact .rfl
  | readDecoded x =>
    dsimp only at hs
    split at hs <;> cases hs
    cases x <;> simp only [Conn.readDecoded] <;> split <;> exact .rfl

theorem zombie_fault {s : Conf} (h : Zombie s.c s.stack) : s.c.fault = none := by
  generalize s.stack = st at h
  cases h with
  | z0 _ h _ _ => exact h.fault
  | z1 _ _ _ h => exact h.fault
  | zf _ h => exact h.fault
  | z2 _ h => exact h.fault
  | zp _ h => exact h.fault

/-- The state of a zombie that is not about to use the device. -/
theorem zombie_state {c : Conn} {stack : List Instr} (h : Zombie c stack) (hl : c.st ≠ .receivingHeaders) : c.st = .completed ∨ c.st = .closed ∨ c.st = .flushing := by
  cases h with
  | z0 _ _ _ e => exact .inl e
  | z1 _ _ _ _ e => exact .inr (.inl e)
  | zf _ _ e => exact .inr (.inl e)
  | z2 _ _ e => exact .inr (.inr e)
  | zp _ _ e => exact absurd e hl

theorem tau_inv {s s' : Conf} {k : Nat} (hf : s.c.fault = none) (hs : s.step (.tau k) = some s') :
    ∃ i rest, s.stack = i :: rest ∧ i ≠ .env ∧ s' = ⟨(exec k i s.c).1, (exec k i s.c).2 ++ rest⟩ := by
  unfold Conf.step at hs
  rw [hf] at hs
  simp only [Option.isSome_none, Bool.false_eq_true, ↓reduceIte] at hs
  split at hs
  · cases hs
  · cases hs
  · rename_i i rest hne heq
    simp only [Option.some.injEq] at hs
    exact ⟨i, rest, heq, hne, hs.symm⟩

/-! ### What the response announced -/

theorem plain_write (c : Conn) (e : Ev) (h : ∀ x, e ≠ .head x) : Headless c.log (c.write e).log := by
  unfold Conn.write; split
  · exact .inl (Eq.refl _)
  · exact .inr ⟨e, h, Eq.refl _⟩

theorem plain_write_of {a : List Ev} (c : Conn) (e : Ev) (h : ∀ x, e ≠ .head x) (ha : c.log = a) : Headless a (c.write e).log := ha ▸ plain_write c e h

theorem exec_plain (k : Nat) (i : Instr) (c : Conn) (hn : c.st ≠ .sendingHeaders) : Headless c.log (exec k i c).1.log := by
  cases i with
  | env => exact .rfl
  | processInput =>
    simp only [exec, Conn.processInput]
    repeat' split
    all_goals exact .inl (by simp [Conn.fill, Conn.parse])
  | recvContent =>
    simp only [exec, Conn.recvContent]
    repeat' split
    all_goals first | exact .rfl | exact plain_write_of _ _ (by simp) (Eq.refl _)
  | sendHeaders =>
    simp only [exec, Conn.sendHeaders]
    split
    · exact .rfl
    · have key : ∀ (c2 : Conn) (r : ReqView), c2.log = c.log → Headless c.log (c2.emit (.ready r)).log := fun c2 r h2 =>
        .inr ⟨.ready r, by simp, by simp [Conn.emit, h2]⟩
      apply key
      split <;> exact Eq.refl _
  | sendContent =>
    simp only [exec, Conn.sendContent]
    repeat' split
    all_goals first | exact .rfl | exact .inl (log_view _)
  | sendContentRest => simp only [exec, Conn.sendContentRest]; split <;> exact .rfl
  | completed =>
    simp only [exec, Conn.complete]
    split
    · exact .rfl
    · exact .inr ⟨.completed, by simp, Eq.refl _⟩
  | completedRest => simp only [exec, Conn.completedRest]; split <;> exact .rfl
  | completedRest2 => simp only [exec, Conn.completedRest2, Conn.toReceivingHeaders]; split <;> exact .rfl
  | flush => simp only [exec, Conn.flush]; repeat' split
             all_goals exact .rfl
  | drain => simp only [exec, Conn.drain]; split <;> exact .rfl
  | drainRest => simp only [exec, Conn.drainRest]; repeat' split
                 all_goals exact .rfl
  | flushing => simp only [exec, Conn.toFlushing]; split <;> exact .rfl
  | flushingRest => simp only [exec, Conn.flushingRest]; repeat' split
                    all_goals exact .rfl
  | closed f =>
    simp only [exec, Conn.toClosed]
    split
    · exact .rfl
    · exact .inr ⟨_, by simp, Eq.refl _⟩
  | closedRest => exact .rfl
  | errorResponse code =>
    simp only [exec, Conn.errorResponse]
    split
    · exact .rfl
    · exact plain_write _ _ (by simp)
  | writeResponse st hs ct => simp only [exec, Conn.writeResponse]; split <;> exact .rfl
  | writeResponseRest ct =>
    simp only [exec, Conn.writeResponseRest]
    repeat' split
    all_goals first | exact .rfl | exact .inl (log_view _)
  | writeHeaders st hs =>
    simp only [exec, Conn.writeHeaders]
    rw [if_pos hn]
    exact .rfl
  | writeContent ct =>
    simp only [exec, Conn.writeContent]
    split
    · exact .rfl
    split
    · exact .rfl
    split
    · exact .rfl
    split
    · split
      · exact .inl (log_view _)
      · split <;> split <;> exact plain_write_of _ _ (by simp) (log_view _)
    · exact .rfl
  | endContent =>
    simp only [exec, Conn.endContent]
    repeat' split
    all_goals first | exact .rfl | exact plain_write _ _ (by simp)


theorem phase_head {lo : Bool} {log : List Ev} {ph : Phase} (hr : Runs lo log ph) : ∀ r h, (ph = .ended r h ∨ ∃ n, ph = .sending r h n) → LastHead log h := by
  induction hr with
  | start => rintro r h (e | ⟨n, e⟩) <;> cases e
  | step log p p' e hr hn ih =>
    have same : ∀ r h, (p = .ended r h ∨ ∃ n, p = .sending r h n) → (∀ x, e ≠ .head x) → LastHead (log ++ [e]) h := by
      intro r h hp he
      obtain ⟨a, b, rfl, hb⟩ := ih r h hp
      refine ⟨a, b ++ [e], by simp, fun x hx k => ?_⟩
      rcases List.mem_append.1 hx with hx | hx
      · exact hb x hx k
      · rw [List.mem_singleton.1 hx]; exact he k
    intro r h hp
    cases hn with
    | recv p bs => exact same r h hp (by simp)
    | head r' h' _ =>
      have : h' = h := by
        split at hp
        · rcases hp with e | ⟨n, e⟩ <;> cases e; rfl
        · rcases hp with e | ⟨n, e⟩ <;> cases e; rfl
      subst this
      exact ⟨log, [], rfl, by simp⟩
    | body r' h' n bs _ _ _ _ _ =>
      have : r' = r ∧ h' = h := by
        split at hp
        · rcases hp with e | ⟨n, e⟩ <;> cases e; exact ⟨rfl, rfl⟩
        · rcases hp with e | ⟨n, e⟩ <;> cases e; exact ⟨rfl, rfl⟩
      obtain ⟨rfl, rfl⟩ := this
      exact same r' h' (.inr ⟨n, rfl⟩) (by simp)
    | chunk r' h' n bs _ _ _ _ =>
      rcases hp with e | ⟨n, e⟩ <;> cases e
      exact same r h (.inr ⟨_, rfl⟩) (by simp)
    | lastChunk r' h' n _ _ =>
      rcases hp with e | ⟨n, e⟩ <;> cases e
      exact same r h (.inr ⟨_, rfl⟩) (by simp)
    | init _ _ | interim | ready _ _ _ | error _ | forced _ _ _ _ | drained | again _ => rcases hp with e | ⟨n, e⟩ <;> cases e
    | completed r' h' => unfold Phase.after at hp; split at hp <;> rcases hp with e | ⟨n, e⟩ <;> cases e
    | completedOpen r' h' n _ _ _ => unfold Phase.after at hp; split at hp <;> rcases hp with e | ⟨n, e⟩ <;> cases e

theorem _root_.Pillow.Spec.LastHead.more {a b : List Ev} {h : RespHead} (hl : LastHead a h) (hm : Headless a b) : LastHead b h := by
  obtain ⟨x, y, rfl, hy⟩ := hl
  rcases hm with rfl | ⟨e, he, rfl⟩
  · exact ⟨x, y, rfl, hy⟩
  · refine ⟨x, y ++ [e], by simp, fun z hz k => ?_⟩
    rcases List.mem_append.1 hz with hz | hz
    · exact hy z hz k
    · rw [List.mem_singleton.1 hz]; exact he k

theorem _root_.Pillow.Spec.LastHead.unique {a : List Ev} {h h' : RespHead} (h1 : LastHead a h) (h2 : LastHead a h') : h = h' := by
  obtain ⟨x, y, rfl, hy⟩ := h1
  obtain ⟨x', y', e, hy'⟩ := h2
  rcases List.append_eq_append_iff.1 e with ⟨t, e1, e2⟩ | ⟨t, e1, e2⟩
  · cases t with
    | nil => simp at e2; exact e2.1
    | cons z t =>
      simp only [List.cons_append, List.cons.injEq] at e2
      exact absurd rfl (hy (.head h') (by rw [e2.2]; simp) h')
  · cases t with
    | nil => simp at e2; exact e2.1.symm
    | cons z t =>
      simp only [List.cons_append, List.cons.injEq] at e2
      exact absurd rfl (hy' (.head h) (by rw [e2.2]; simp) h)

/-- While the state is `Completed`, the flag is what the head of the response announced. -/
def Announced (s : Conf) : Prop := s.c.st = .completed → ∃ h, LastHead s.c.log h ∧ s.c.keepAlive = h.keepAlive

theorem announced_step {s s' : Conf} {l : Label} (h : Core true s.c s.stack) (ha : Announced s) (hs : s.step l = some s') : Announced s' := by
  intro hst
  by_cases hl : ∃ k, l = .tau k
  · obtain ⟨k, rfl⟩ := hl
    obtain ⟨i, rest, heq, hne, rfl⟩ := tau_inv h.fault hs
    have kp := exec_kept k i s.c
    obtain ⟨ph, hruns, hd⟩ := h.data
    rw [heq] at hd
    rcases kp.completed hst with e1 | rfl
    · obtain ⟨hd', h1, h2⟩ := ha e1
      refine ⟨hd', h1.more (exec_plain k i s.c (by rw [e1]; simp)), ?_⟩
      rcases kp.keep with e | ⟨rfl, e⟩ | ⟨rfl, e⟩ | ⟨e, -⟩ | ⟨e, -⟩
      · exact e.trans h2
      · rw [show (exec k .sendHeaders s.c).1.st = .completed from hst] at e; cases e
      · -- the flag is not changed: it was not set, or the length is known
        have hset := (settled_completed e1).1 (show Settled true s.c ph from hd)
        rw [← h2]
        simp only [exec, Conn.sendContentRest]
        split
        · rename_i hc
          cases hk : s.c.keepAlive with
          | false => rfl
          | true =>
            rcases hset.2.1 hk with e | e
            · omega
            · rw [hc.2] at e; cases e
        · rfl
      · rw [e1] at e; cases e
      · rw [e1] at e; cases e
    · obtain ⟨e1, -, -, hd', n, hresp, hph⟩ := hd
      have hlh : LastHead s.c.log hd' := by
        rcases hph with e | ⟨e, -⟩
        · exact phase_head hruns _ _ (.inl e)
        · exact phase_head hruns _ _ (.inr ⟨_, e⟩)
      refine ⟨hd', hlh.more (exec_plain k .completed s.c (by rw [e1]; simp)), ?_⟩
      simp only [exec, Conn.complete]
      rw [if_neg (by rw [e1]; simp)]
      exact hresp.keep
  · by_cases hi : l = .init
    · subst hi
      exfalso
      unfold Conf.step at hs
      rw [h.fault] at hs
      simp only [Option.isSome_none, Bool.false_eq_true, ↓reduceIte] at hs
      split at hs
      · simp only [Option.some.injEq] at hs
        subst hs
        have e : s.c.initialize.st = .receivingHeaders := by
          simp only [Conn.initialize, Conn.toReceivingHeaders]
          split
          · rename_i e; exact e
          · rfl
        rw [show s.c.initialize.st = .completed from hst] at e
        cases e
      · cases hs
    · obtain ⟨e1, e2, -⟩ := step_env h.fault hs (fun k e => hl ⟨k, e⟩) hi
      obtain ⟨hd', h1, h2⟩ := ha (e2.symm.trans hst)
      exact ⟨hd', h1.more (step_plain h.fault hs (fun k e => hl ⟨k, e⟩) hi), e1.trans h2⟩

theorem announced_reach {s : Conf} (h : Reach Proper s) : Announced s := by
  induction h with
  | start => intro e; cases e
  | step s s' l hr hp hs ih =>
    rcases linv_reach hr with h | h | h
    · exact announced_step h ih hs
    · intro hst
      have hf := zombie_fault h
      by_cases hl : ∃ k, l = .tau k
      · exfalso
        obtain ⟨k, rfl⟩ := hl
        obtain ⟨i, rest, heq, hne, rfl⟩ := tau_inv hf hs
        rw [heq] at h
        generalize hS : i :: rest = stack at h
        cases h with
        | z0 rest' hc hfr e =>
          obtain ⟨rfl, rfl⟩ := List.cons.inj hS
          have : (exec k (.closed true) s.c).1.st = .closed := by
            simp only [exec, Conn.toClosed]; rw [if_neg (by rw [e]; simp)]; rfl
          rw [show (exec k (.closed true) s.c).1.st = .completed from hst] at this
          cases this
        | z1 _ _ _ _ e _ hb =>
          subst hS
          rcases (exec_kept k i s.c).completed hst with e' | rfl
          · rw [e] at e'; cases e'
          · have := hb _ rfl; cases this
        | zf _ _ e =>
          obtain ⟨rfl, rfl⟩ := List.cons.inj hS
          rcases (exec_kept k .flushing s.c).completed hst with e' | e'
          · rw [e] at e'; cases e'
          · cases e'
        | z2 _ _ e _ _ hb =>
          subst hS
          rcases (exec_kept k i s.c).completed hst with e' | rfl
          · rw [e] at e'; cases e'
          · have := hb _ rfl; cases this
        | zp _ _ e =>
          obtain ⟨rfl, rfl⟩ := List.cons.inj hS
          rcases (exec_kept k .processInput s.c).completed hst with e' | e'
          · rw [e] at e'; cases e'
          · cases e'
      · by_cases hi : l = .init
        · subst hi
          exfalso
          obtain ⟨p1, p2⟩ := hp rfl
          have he : s.inEnv = true := (inEnv_iff s).2 (.inl p1)
          rcases zombie_env he h with ⟨n, x, h1, h2, h3, h4, h5, h6⟩ | ⟨h1, h2, h3, h4, h5⟩
          · rw [p1] at h4; simp at h4
          · rw [h2] at p2; simp at p2
        · obtain ⟨e1, e2, -⟩ := step_env hf hs (fun k e => hl ⟨k, e⟩) hi
          obtain ⟨hd', h1, h2⟩ := ih (e2.symm.trans hst)
          exact ⟨hd', h1.more (step_plain hf hs (fun k e => hl ⟨k, e⟩) hi), e1.trans h2⟩
    · unfold Conf.step at hs
      rw [if_pos h.1] at hs
      cases hs

theorem init_zombie {s s' : Conf} (hz : Zombie s.c s.stack) (hl : s.c.st ≠ .receivingHeaders) (hp : Proper s .init) (hs : s.step .init = some s') : False := by
  obtain ⟨p1, p2⟩ := hp rfl
  have he : s.inEnv = true := (inEnv_iff s).2 (.inl p1)
  rcases zombie_env he hz with ⟨n, x, h1, h2, h3, h4, h5, h6⟩ | ⟨h1, h2, h3, h4, h5⟩
  · rw [p1] at h4; simp at h4
  · rw [h2] at p2; simp at p2

/-- Harmless zombies stay harmless. -/
theorem harmless_step {s s' : Conf} {l : Label} (hz : Zombie s.c s.stack) (h : Harmless s) (hp : Proper s l) (hs : s.step l = some s') : Harmless s' := by
  have hf := zombie_fault hz
  by_cases hl : ∃ k, l = .tau k
  · obtain ⟨k, rfl⟩ := hl
    obtain ⟨i, rest, heq, hne, rfl⟩ := tau_inv hf hs
    have kp := exec_kept k i s.c
    have hst := zombie_state hz h.live
    have hcl := h.clear
    rw [heq] at hcl
    refine ⟨?_, ?_, ?_⟩
    · rcases kp.keep with e | ⟨rfl, e⟩ | ⟨-, e⟩ | ⟨e, -⟩ | ⟨e, -⟩
      · exact e.trans h.keep
      · -- `sendHeaders` is not on the stack of a zombie
        exfalso
        rw [heq] at hz
        generalize hS : Instr.sendHeaders :: rest = st at hz
        cases hz with
        | z0 => cases hS
        | z1 _ _ _ _ _ _ hb => subst hS; have := hb _ rfl; cases this
        | zf => cases hS
        | z2 _ _ _ _ _ hb => subst hS; have := hb _ rfl; cases this
        | zp => cases hS
      · exact e
      · rcases hst with e' | e' | e' <;> rw [e] at e' <;> cases e'
      · rcases hst with e' | e' | e' <;> rw [e] at e' <;> cases e'
    · intro hm
      rcases List.mem_append.1 hm with hm | hm
      · rcases (exec_push k i s.c).2 _ hm rfl with ⟨-, e⟩ | ⟨-, e, -⟩
        · rw [e] at hm; simp at hm
        · rw [h.keep] at e; cases e
      · exact hcl (List.mem_cons_of_mem _ hm)
    · intro e
      rcases kp.receiving e with e | rfl
      · exact h.live e
      · exact hcl (by simp)
  · by_cases hi : l = .init
    · subst hi; exact (init_zombie hz h.live hp hs).elim
    · obtain ⟨e1, e2, e3⟩ := step_env hf hs (fun k e => hl ⟨k, e⟩) hi
      refine ⟨e1.trans h.keep, fun hm => ?_, by rw [e2]; exact h.live⟩
      rcases e3 _ hm with e | ⟨a, e⟩
      · exact h.clear e
      · cases a <;> cases e

theorem pinv_step {s s' : Conf} {l : Label} (hr : Reach Proper s) (h : PInv s) (hp : Parting s l) (hs : s.step l = some s') : PInv s' := by
  rcases h with h | ⟨h, hh⟩ | h
  · by_cases hc : l = .call .close ∧ s.c.st = .completed
    · obtain ⟨rfl, hst⟩ := hc
      have hka : s.c.keepAlive = false := by
        obtain ⟨hd, k1, k2⟩ := announced_reach hr hst
        rw [k2]; exact hp.2 rfl hst hd k1
      unfold Conf.step at hs
      rw [h.fault] at hs
      simp only [Option.isSome_none, Bool.false_eq_true, ↓reduceIte] at hs
      split at hs
      · rename_i he
        simp only [Option.some.injEq] at hs
        subst hs
        have hh : s.stack.head? ≠ some .flushing := by
          rcases (inEnv_iff s).1 he with e | ⟨rest, e⟩ <;> rw [e] <;> simp
        have hv : s.c.viewsValid = true := by
          cases hv : s.c.viewsValid with
          | true => rfl
          | false =>
            obtain ⟨ph, -, hd⟩ := h.data
            have := ((settled_completed hst).1 ((data_frame (inEnv_frames he h)).1 hd)).2.2
            rw [hv, if_neg (by simp)] at this
            rw [hka] at this; cases this.2
        refine .inr (.inl ⟨.z0 _ h (inEnv_frames he h) hst, hka, ?_, by rw [hst]; simp⟩)
        have hsn := h.sens
        unfold sensOk at hsn
        rw [if_neg hh, hst] at hsn
        simp only [hv] at hsn
        intro hm
        rcases List.mem_cons.1 hm with e | hm
        · cases e
        · have : Instr.completedRest2 ∈ s.stack.filter Instr.sens := List.mem_filter.2 ⟨hm, rfl⟩
          rw [hsn] at this
          simp at this
      · cases hs
    · rcases inv_step (.inl h) ⟨hp.1, fun e hst => hc ⟨e, hst⟩⟩ hs with h' | ⟨h', -⟩
      · exact .inl h'
      · exact .inr (.inr h')
  · have hh' := harmless_step h hh hp.1 hs
    rcases zombie_step h hh.live hp.1 hs with ⟨-, -, h'⟩ | h'
    · exact .inl h'
    · exact .inr (.inl ⟨h', hh'⟩)
  · unfold Conf.step at hs
    rw [if_pos (by rw [h]; rfl)] at hs
    cases hs

theorem pinv_reach {s : Conf} (h : Reach Parting s) : PInv s := by
  induction h with
  | start =>
    rcases inv_start (lo := true) with h | ⟨h, -⟩
    · exact .inl h
    · cases h
  | step s s' l hr hp hs ih => exact pinv_step (reach_mono (fun _ _ h => h.1) hr) ih hp hs

/-! ### Closing a connection that is kept alive -/

/-- Closed, and going to use the device. -/
structure Doomed (s : Conf) : Prop where
  zombie : Zombie s.c s.stack
  keep : s.c.keepAlive = true
  ordered : Ordered s.stack
  pending : s.c.st ≠ .receivingHeaders → ∃ x ∈ s.stack, x.after = true

theorem doomed_step {s s' : Conf} {l : Label} (h : Doomed s) (hp : Proper s l) (hs : s.step l = some s') : Doomed s' ∨ s'.c.fault = some .nullDevice := by
  have hf := zombie_fault h.zombie
  by_cases hrec : s.c.st = .receivingHeaders
  · right
    have hz := h.zombie
    generalize hst : s.stack = st at hz
    cases hz with
    | z0 _ _ _ e => rw [hrec] at e; cases e
    | z1 _ _ _ _ e => rw [hrec] at e; cases e
    | zf _ _ e => rw [hrec] at e; cases e
    | z2 _ _ e => rw [hrec] at e; cases e
    | zp rest hz _ hd =>
      by_cases hl : ∃ k, l = .tau k
      · obtain ⟨k, rfl⟩ := hl
        obtain ⟨i, rest, heq, hne, rfl⟩ := tau_inv hf hs
        rw [hst] at heq
        obtain ⟨rfl, rfl⟩ := List.cons.inj heq
        simp only [exec, Conn.processInput]
        rw [if_neg (by rw [hrec]; simp), hd]
      · exfalso
        unfold Conf.step at hs
        rw [hf] at hs
        simp only [Option.isSome_none, Bool.false_eq_true, ↓reduceIte] at hs
        cases l with
        | tau k => exact hl ⟨k, rfl⟩
        | ret => simp only [hst] at hs; cases hs
        | call _ | recv _ | bytesWritten _ | init | readParams | setParam _ _ | readDecoded _ =>
          simp only [show s.inEnv = false by simp [Conf.inEnv, hst]] at hs
          cases hs
  · left
    have ho' := ordered_step (.inr (.inl h.zombie)) h.ordered hs
    have hst := zombie_state h.zombie hrec
    obtain ⟨x, hx, hxa⟩ := h.pending hrec
    -- the facts about the stack and the flag
    have key : s'.c.keepAlive = true ∧ (s'.c.st ≠ .receivingHeaders → ∃ x ∈ s'.stack, x.after = true) := by
      by_cases hl : ∃ k, l = .tau k
      · obtain ⟨k, rfl⟩ := hl
        obtain ⟨i, rest, heq, hne, rfl⟩ := tau_inv hf hs
        have kp := exec_kept k i s.c
        refine ⟨?_, fun hnr => ?_⟩
        · rcases kp.keep with e | ⟨rfl, e⟩ | ⟨rfl, e⟩ | ⟨e, -⟩ | ⟨e, -⟩
          · exact e.trans h.keep
          · exfalso
            have hz := h.zombie
            rw [heq] at hz
            generalize hS : Instr.sendHeaders :: rest = st at hz
            cases hz with
            | z0 => cases hS
            | z1 _ _ _ _ _ _ hb => subst hS; have := hb _ rfl; cases this
            | zf => cases hS
            | z2 _ _ _ _ _ hb => subst hS; have := hb _ rfl; cases this
            | zp => cases hS
          · exfalso
            rw [heq] at hx
            rcases List.mem_cons.1 hx with rfl | hx
            · cases hxa
            · obtain ⟨a, b, rfl⟩ := List.append_of_mem hx
              exact h.ordered (.sendContentRest :: a) x b (by rw [heq]; rfl) hxa (by simp)
          · rcases hst with e' | e' | e' <;> rw [e] at e' <;> cases e'
          · rcases hst with e' | e' | e' <;> rw [e] at e' <;> cases e'
        · rw [heq] at hx
          rcases List.mem_cons.1 hx with rfl | hx
          · cases x with
            | completedRest =>
              refine ⟨.completedRest2, ?_, rfl⟩
              simp only [exec, Conn.completedRest]
              rw [if_pos h.keep]
              simp
            | completedRest2 =>
              exfalso
              apply hnr
              simp only [exec, Conn.completedRest2, Conn.toReceivingHeaders]
              rw [if_neg hrec]
            | _ => cases hxa
          · exact ⟨x, List.mem_append_right _ hx, hxa⟩
      · by_cases hi : l = .init
        · subst hi; exact (init_zombie h.zombie hrec hp hs).elim
        · obtain ⟨e1, e2, -⟩ := step_env hf hs (fun k e => hl ⟨k, e⟩) hi
          refine ⟨e1.trans h.keep, fun _ => ⟨x, ?_, hxa⟩⟩
          unfold Conf.step at hs
          rw [hf] at hs
          simp only [Option.isSome_none, Bool.false_eq_true, ↓reduceIte] at hs
          cases l with
          | tau k => exact absurd ⟨k, rfl⟩ hl
          | init => exact absurd rfl hi
          | call a =>
            simp only at hs
            split at hs
            · simp only [Option.some.injEq] at hs
              subst hs
              exact List.mem_cons_of_mem _ hx
            · cases hs
          | ret =>
            simp only at hs
            split at hs
            · rename_i rest heq
              simp only [Option.some.injEq] at hs
              subst hs
              rw [heq] at hx
              rcases List.mem_cons.1 hx with rfl | hx
              · cases hxa
              · exact hx
            · cases hs
          | recv bs =>
            simp only at hs
            split at hs
            · split at hs
              · simp only [Option.some.injEq] at hs; subst hs; exact hx
              · cases hs
            · cases hs
          | bytesWritten k =>
            simp only at hs
            split at hs
            · split at hs
              · simp only [Option.some.injEq] at hs
                subst hs
                show x ∈ (if _ then _ else _)
                split
                · exact List.mem_cons_of_mem _ hx
                · exact hx
              · cases hs
            · cases hs
          | readParams | setParam _ _ | readDecoded _ =>
            simp only at hs
            split at hs
            · simp only [Option.some.injEq] at hs; subst hs; exact hx
            · cases hs
    refine ⟨?_, key.1, ho', key.2⟩
    rcases zombie_step h.zombie hrec hp hs with ⟨hfl, -⟩ | h'
    · exfalso
      have hz := h.zombie
      generalize s.stack = st at hz hx
      cases hz with
      | z0 _ _ _ e => rw [hfl] at e; cases e
      | z1 _ _ _ _ e => rw [hfl] at e; cases e
      | zf _ _ e => rw [hfl] at e; cases e
      | zp _ _ e => rw [hfl] at e; cases e
      | z2 _ _ _ _ _ _ hsn =>
        have : x = .drainRest ∨ x = .flushingRest := hsn x (List.mem_filter.2 ⟨hx, by cases x <;> simp_all [Instr.after, Instr.sens]⟩)
        rcases this with rfl | rfl <;> cases hxa
    · exact h'

/-- At the moment of the call. -/
theorem doomed_close {s s' : Conf} (h : Reach Proper s) (hst : s.c.st = .completed) (hk : s.c.keepAlive = true) (hs : s.step (.call .close) = some s') : Doomed s' := by
  unfold Conf.step at hs
  split at hs
  · cases hs
  rename_i hf
  have hf : s.c.fault = none := by simpa using hf
  simp only at hs
  split at hs
  · rename_i he
    simp only [Option.some.injEq] at hs
    subst hs
    have hc := reach_core h he hf (by rw [hst]; simp) (by rw [hst]; simp)
    have hh : s.stack.head? ≠ some .flushing := by
      rcases (inEnv_iff s).1 he with e | ⟨rest, e⟩ <;> rw [e] <;> simp
    refine ⟨.z0 _ hc (inEnv_frames he hc) hst, hk, (ordered_reach h).cons (by simp [Call.instr]), fun _ => ?_⟩
    have hsn := hc.sens
    unfold sensOk at hsn
    rw [if_neg hh, hst] at hsn
    have : (if s.c.viewsValid = true then Instr.completedRest else .completedRest2) ∈ s.stack.filter Instr.sens := by rw [hsn]; simp
    exact ⟨_, List.mem_cons_of_mem _ (List.mem_filter.1 this).1, by split <;> rfl⟩
  · cases hs

theorem doomed_run {ls : List Label} {s s' : Conf} (h : Doomed s) (hp : ∀ t l, l ∈ ls → Proper t l) (hs : s.run ls = some s') : Doomed s' ∨ s'.c.fault = some .nullDevice := by
  induction ls generalizing s with
  | nil => cases hs; exact .inl h
  | cons l ls ih =>
    simp only [Conf.run] at hs
    cases h1 : s.step l with
    | none => rw [h1] at hs; cases hs
    | some t =>
      rw [h1] at hs
      rcases doomed_step h (hp s l (by simp)) h1 with h2 | h2
      · exact ih h2 (fun t l hl => hp t l (by simp [hl])) hs
      · cases ls with
        | nil => cases hs; exact .inr h2
        | cons l' ls =>
          exfalso
          simp only [Option.bind_some, Conf.run, Conf.step] at hs
          rw [if_pos (by rw [h2]; rfl)] at hs
          cases hs

theorem doomed_stack {s : Conf} (h : Doomed s) : s.stack ≠ [] := by
  intro e
  have hz := h.zombie
  rw [e] at hz
  generalize hS : ([] : List Instr) = st at hz
  by_cases hr : s.c.st = .receivingHeaders
  · cases hz with
    | z0 => cases hS
    | z1 _ _ _ _ e => rw [hr] at e; cases e
    | zf => cases hS
    | z2 _ _ e => rw [hr] at e; cases e
    | zp => cases hS
  · obtain ⟨x, hx, -⟩ := h.pending hr
    rw [e] at hx; cases hx

end Pillow.Doom
