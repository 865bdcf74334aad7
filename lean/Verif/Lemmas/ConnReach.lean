import Verif.Lemmas.ConnStep3
set_option linter.unusedSimpArgs false
set_option linter.unusedVariables false
/-!
# The invariant holds in every configuration reachable in a gentle environment
-/
namespace Pillow
open Spec

variable {lo : Bool}

theorem inv_start : Inv lo {} [] := by
  left
  refine ⟨rfl, by simp, by simp [sensOk], by simp, fun _ => rfl, .off, .start, ?_⟩
  show Settled true {} .off
  refine ⟨rfl, [], [], .nil _, rfl, by simp [epoch]⟩

/-- Foreign code is in control: the top of the stack is `env` or the stack is empty. -/
theorem inEnv_iff (s : Conf) : s.inEnv = true ↔ (s.stack = [] ∨ ∃ rest, s.stack = .env :: rest) := by
  unfold Conf.inEnv
  split <;> simp_all

theorem inEnv_settled {s : Conf} (he : s.inEnv = true) {ph : Phase} : Data s.c ph s.stack.head? ↔ Settled true s.c ph := by
  rcases (inEnv_iff s).1 he with h | ⟨rest, h⟩ <;> rw [h] <;> rfl

/-- All frames, top included. -/
theorem inEnv_frames {s : Conf} (he : s.inEnv = true) (h : Core lo s.c s.stack) : ∀ i ∈ s.stack, i.frame = true := by
  have := h.frames
  rcases (inEnv_iff s).1 he with e | ⟨rest, e⟩
  · rw [e]; simp
  · rw [e] at this ⊢
    intro i hi
    rcases List.mem_cons.1 hi with rfl | hi
    · rfl
    · exact this i hi

theorem inEnv_head {s : Conf} (he : s.inEnv = true) : s.stack.head? ≠ some .flushing ∧ s.stack.head? ≠ some .sendContent := by
  rcases (inEnv_iff s).1 he with h | ⟨rest, h⟩ <;> rw [h] <;> simp

/-- A change of fields the invariant does not look at. -/
theorem core_same {s : Conf} {c' : Conn} (he : s.inEnv = true) (h : Core lo s.c s.stack) (hs : Same s.c c')
    (hf : c'.fault = s.c.fault) (hd : s.c.dev.isSome = true → c'.dev.isSome = true) (hr : c'.respBuf = s.c.respBuf) : Core lo c' s.stack where
  fault := hf.trans h.fault
  frames := h.frames
  sens := by rw [hs.st, hs.viewsValid]; exact h.sens
  dev := by rw [hs.st]; exact fun a b => hd (h.dev a b)
  resp := by rw [hr]; exact h.resp
  data := by
    obtain ⟨ph, h1, h2⟩ := h.data
    exact ⟨ph, by rw [hs.log]; exact h1, by
      have := (inEnv_settled he).1 h2
      have := this.congr hs
      rcases (inEnv_iff s).1 he with h | ⟨rest, h⟩ <;> rw [h] <;> exact this⟩

theorem core_call {s : Conf} (he : s.inEnv = true) (h : Core lo s.c s.stack) (a : Call)
    (hg : a = .close → s.c.st ≠ .completed) : Core lo s.c (a.instr :: s.stack) where
  fault := h.fault
  frames := inEnv_frames he h
  sens := by
    have := h.sens
    have hns : a.instr.sens = false := by cases a <;> rfl
    have hnf : a.instr ≠ .flushing := by cases a <;> simp [Call.instr]
    rw [List.head?_cons, List.filter_cons, if_neg (by simp [hns])]
    unfold sensOk at *
    rw [if_neg (by simpa using hnf)]
    rwa [if_neg (inEnv_head he).1] at this
  dev := h.dev
  resp := fun _ => h.resp (inEnv_head he).2
  data := by
    obtain ⟨ph, h1, h2⟩ := h.data
    have h2 := (inEnv_settled he).1 h2
    refine ⟨ph, h1, ?_⟩
    rw [List.head?_cons]
    cases a with
    | processInput => exact settled_weaken h2
    | close => exact ⟨hg rfl, h2⟩
    | flush => exact h2
    | drain => exact h2
    | writeResponse s hs ct => exact h2
    | writeHeaders s hs => exact .inl h2
    | writeContent ct => exact h2
    | endContent => exact h2

theorem core_ret {s : Conf} {rest : List Instr} (hs : s.stack = .env :: rest) (h : Core lo s.c s.stack) : Core lo s.c rest := by
  obtain ⟨ph, h1, h2⟩ := h.data
  rw [hs] at h h2
  exact core_skip h rfl (by simp) (by simp) h1 h2

theorem settled_recv {c c' : Conn} {ph : Phase} {bs : Bytes} (h : Settled true c ph) (e1 : c'.st = c.st)
    (e2 : c'.log = c.log ++ [.recv bs]) (e3 : c'.buf = c.buf) (e4 : c'.inp = c.inp ++ bs) (e5 : c'.parser = c.parser)
    (e6 : c'.refs = c.refs) (e7 : c'.clen = c.clen) (e8 : c'.req = c.req) (e9 : c'.http11 = c.http11)
    (e10 : c'.chunked = c.chunked) (e11 : c'.respLen = c.respLen) (e12 : c'.viewsValid = c.viewsValid)
    (e13 : c'.sent = c.sent) (e14 : c'.keepAlive = c.keepAlive) : Settled true c' ph := by
  have busy : Busy c → Busy c' := by
    rintro ⟨reqs, tail, b1, b2, b3⟩
    exact ⟨reqs, tail, by rw [e2, e4, ← List.append_assoc]; exact b1.recv bs, by rw [e3, e5, e7]; exact b2, by rw [e3]; exact b3⟩
  cases hst : c.st with
  | uninitialized =>
    unfold Settled at *
    rw [hst] at h
    rw [e1, hst, e2]
    exact ⟨h.1, weak_recv h.2 bs⟩
  | receivingHeaders =>
    obtain ⟨h1, reqs, s0, n, h2, h3⟩ := (settled_recvH hst).1 h
    refine (settled_recvH (e1.trans hst)).2 ⟨h1, reqs, s0, n, ?_, ?_⟩
    · rw [e2, e3, e4, ← List.append_assoc]; exact h2.recv bs
    · rw [e3, e5, e6, e7]; exact h3
  | receivingContent =>
    obtain ⟨reqs, hd, tail, n, h1, h2⟩ := (settled_recvC hst).1 h
    refine (settled_recvC (e1.trans hst)).2 ⟨reqs, hd, tail, n, ⟨⟨?_, h1.head.wf, h1.head.short, ?_, ?_, ?_⟩, h1.announced, h1.small, ?_, h1.phase⟩, h2⟩
    · rw [e2, e4, ← List.append_assoc]; exact h1.head.hist.recv bs
    · rw [e5]; exact h1.head.parser
    · rw [e5, e3]; exact h1.head.buf
    · rw [e5, e6]; exact h1.head.refs
    · rw [e7]; exact h1.clen
  | sendingHeaders =>
    obtain ⟨h1, h2, h3⟩ := (settled_sendH hst).1 h
    refine (settled_sendH (e1.trans hst)).2 ⟨by rw [e8]; exact h1, busy h2, ?_⟩
    rw [e8, e9, e10, e11, e12, e13]; exact h3
  | sendingContent =>
    obtain ⟨hd, n, h1, h2, h3, h4⟩ := (settled_sendC hst).1 h
    refine (settled_sendC (e1.trans hst)).2 ⟨hd, n, by rw [e8]; exact h1, h2.congr e11 e10 e14 e13, busy h3, ?_⟩
    rw [e8, e12]; exact h4
  | completed =>
    obtain ⟨h1, h2, h3⟩ := (settled_completed hst).1 h
    refine (settled_completed (e1.trans hst)).2 ⟨by rw [e14]; exact h1, by rw [e14, e10, e11]; exact h2, ?_⟩
    rw [e12]
    split at h3
    · rename_i hv; rw [if_pos hv]; exact busy h3
    · rename_i hv; rw [if_neg hv]
      obtain ⟨⟨reqs, d1, d2⟩, h4⟩ := h3
      refine ⟨⟨reqs, ?_, by rw [e6]; exact d2⟩, by rw [e14]; exact h4⟩
      rw [e2, e3, e4, ← List.append_assoc]; exact d1.recv bs
  | flushing =>
    obtain ⟨h1, h2⟩ := (settled_flushing hst).1 h
    exact (settled_flushing (e1.trans hst)).2 ⟨h1, by rw [e2]; exact weak_recv h2 bs⟩
  | closed =>
    obtain ⟨h1, h2⟩ := (settled_closed hst).1 h
    exact (settled_closed (e1.trans hst)).2 ⟨h1, by rw [e2]; exact weak_recv h2 bs⟩

theorem core_recv {s : Conf} {d : Dev} (he : s.inEnv = true) (h : Core lo s.c s.stack) (hd : s.c.dev = some d) (bs : Bytes) :
    Core lo ({ s.c with dev := some { d with inp := d.inp ++ bs } }.emit (.recv bs)) s.stack where
  fault := h.fault
  frames := h.frames
  sens := h.sens
  dev := fun _ _ => rfl
  resp := h.resp
  data := by
    obtain ⟨ph, h1, h2⟩ := h.data
    refine ⟨ph, .step _ _ _ _ h1 (.recv _ _), ?_⟩
    have h2 := (inEnv_settled he).1 h2
    have key := settled_recv (bs := bs) (c' := { s.c with dev := some { d with inp := d.inp ++ bs } }.emit (.recv bs)) h2
      rfl rfl rfl (by simp [Conn.inp, unread, Conn.emit, hd]) rfl rfl rfl rfl rfl rfl rfl rfl rfl rfl
    rcases (inEnv_iff s).1 he with e | ⟨rest, e⟩ <;> rw [e] <;> exact key

theorem core_drainCall {c : Conn} {s : Conf} (he : s.inEnv = true) (h : Core lo c s.stack) : Core lo c (.drain :: s.stack) :=
  core_call (s := ⟨c, s.stack⟩) he h .drain (by simp)

theorem data_nil {c : Conn} {ph : Phase} (h : Settled true c ph) : Data c ph none := h

theorem core_init {s : Conf} (h : Core lo s.c s.stack) (hs : s.stack = []) (hst : s.c.st = .uninitialized ∨ s.c.st = .closed) :
    Core lo s.c.initialize s.stack := by
  obtain ⟨c, stack⟩ := s
  simp only at h hs hst ⊢
  have e : c.initialize = { c with st := .receivingHeaders, dev := some {}, parser := ({} : Parser).init, buf := [], refs := [], params := [], viewsValid := false, clen := 0, http11 := false, log := c.log ++ [.init] } := by
    unfold Conn.initialize Conn.toReceivingHeaders
    simp only
    rw [if_neg]
    · rfl
    · show ¬ c.st = .receivingHeaders
      rcases hst with e | e <;> rw [e] <;> simp
  rw [e, hs]
  obtain ⟨ph, h1, h2⟩ := h.data
  rw [hs] at h2
  have h2 : Settled true c ph := h2
  have hph : ph = .off ∨ ph = .closed := by
    rcases hst with hst | hst
    · unfold Settled at h2; rw [hst] at h2; exact .inl h2.1
    · exact .inr ((settled_closed hst).1 h2).1
  refine ⟨h.fault, by simp, by simp [sensOk], fun _ _ => rfl, fun _ => h.resp (by rw [hs]; simp), .recv false, .step _ _ _ _ h1 (.init _ hph), ?_⟩
  refine data_nil ?_
  refine (settled_recvH rfl).2 ⟨rfl, [], {}, 0, ?_, Nat.le_refl _, live_nil _, rfl, rfl, rfl, fun _ => ⟨rfl, Nat.zero_le _⟩⟩
  exact weak_init _

theorem inv_step {s s' : Conf} {l : Label} (h : Inv lo s.c s.stack) (hg : Gentle s l) (hs : s.step l = some s') :
    Inv lo s'.c s'.stack := by
  rcases h with h | ⟨h, -⟩
  rotate_left
  · unfold Conf.step at hs
    rw [h] at hs
    simp at hs
  unfold Conf.step at hs
  rw [h.fault] at hs
  simp only [Option.isSome_none, Bool.false_eq_true, ↓reduceIte] at hs
  cases l with
  | tau k =>
    simp only at hs
    split at hs
    · cases hs
    · cases hs
    · rename_i i rest hne heq
      simp only [Option.some.injEq] at hs
      subst hs
      rw [heq] at h
      exact step_exec k (by intro e; exact hne e) h
  | call a =>
    simp only at hs
    split at hs
    · rename_i he
      simp only [Option.some.injEq] at hs
      subst hs
      exact .inl (core_call he h a (fun e => hg.2 (by rw [e])))
    · cases hs
  | ret =>
    simp only at hs
    split at hs
    · rename_i rest heq
      simp only [Option.some.injEq] at hs
      subst hs
      exact .inl (core_ret (s := s) heq h)
    · cases hs
  | recv bs =>
    simp only at hs
    split at hs
    · rename_i he
      split at hs
      · rename_i d hd
        simp only [Option.some.injEq] at hs
        subst hs
        exact .inl (core_recv he h hd bs)
      · cases hs
    · cases hs
  | bytesWritten k =>
    simp only at hs
    split at hs
    · rename_i he
      split at hs
      · rename_i d hd
        simp only [Option.some.injEq] at hs
        subst hs
        have key : Core lo { s.c with dev := some { d with pending := d.pending - k } } s.stack :=
          core_same he h ⟨rfl, rfl, rfl, by simp [Conn.inp, unread, hd], rfl, rfl, rfl, rfl, rfl, rfl, rfl, rfl, rfl, rfl⟩ rfl (fun _ => rfl) rfl
        left
        show Core lo _ (if d.drainConn = true then _ else _)
        split
        · exact core_drainCall he key
        · exact key
      · cases hs
    · cases hs
  | init =>
    simp only at hs
    split at hs
    · simp only [Option.some.injEq] at hs
      subst hs
      obtain ⟨h1, h2⟩ := hg.1 rfl
      exact .inl (core_init h h1 h2)
    · cases hs
  | readParams =>
    simp only at hs
    split at hs
    · rename_i he
      simp only [Option.some.injEq] at hs
      subst hs
      left
      show Core lo s.c.requestParams s.stack
      unfold Conn.requestParams
      split
      · exact core_same he h ⟨rfl, rfl, rfl, rfl, rfl, rfl, rfl, rfl, rfl, rfl, rfl, rfl, rfl, rfl⟩ rfl id rfl
      · exact h
    · cases hs
  | setParam n v =>
    simp only at hs
    split at hs
    · rename_i he
      simp only [Option.some.injEq] at hs
      subst hs
      left
      show Core lo (s.c.setRequestParam n v) s.stack
      unfold Conn.setRequestParam Conn.requestParams
      split
      · exact core_same he h ⟨rfl, rfl, rfl, rfl, rfl, rfl, rfl, rfl, rfl, rfl, rfl, rfl, rfl, rfl⟩ rfl id rfl
      · exact core_same he h ⟨rfl, rfl, rfl, rfl, rfl, rfl, rfl, rfl, rfl, rfl, rfl, rfl, rfl, rfl⟩ rfl id rfl
    · cases hs
  | readDecoded x =>
    simp only at hs
    split at hs
    · rename_i he
      simp only [Option.some.injEq] at hs
      subst hs
      left
      show Core lo (s.c.readDecoded x) s.stack
      unfold Conn.readDecoded
      cases x <;> simp only <;> split <;> first | exact h | exact core_same he h ⟨rfl, rfl, rfl, rfl, rfl, rfl, rfl, rfl, rfl, rfl, rfl, rfl, rfl, rfl⟩ rfl id rfl
    · cases hs

theorem inv_reach {s : Conf} (h : Reach Gentle s) : Inv lo s.c s.stack := by
  induction h with
  | start => exact inv_start
  | step s s' l _ hg hs ih => exact inv_step ih hg hs

end Pillow
