import Verif.Lemmas.ConnReach
set_option linter.unusedSimpArgs false
set_option linter.unusedVariables false
/-!
# Closing while `requestCompleted` is being handled

The continuation of `transitionToCompleted` then runs on a closed connection.  Nothing more is written and no
request is passed on, but `closed` can be emitted again, or a null device is used.
-/
namespace Pillow
open Spec

structure ZBase (c : Conn) : Prop where
  fault : c.fault = none
  weak : Weak c.log
  runs : Runs true c.log .closed
  resp : c.respBuf = []

/-- Instructions that can be on top when foreign code has called something, or that were pushed earlier. -/
def Instr.benign : Instr → Bool
  | .recvContent | .sendHeaders | .sendContent | .completed | .flushing | .errorResponse _ | .closed false => false
  | _ => true

theorem frame_benign {i : Instr} (h : i.frame = true) : i.benign = true := by
  cases i <;> simp_all [Instr.frame, Instr.benign]

inductive Zombie (c : Conn) : List Instr → Prop where
  /-- `close()` has been called in state `Completed`. -/
  | z0 (rest : List Instr) : Core true c rest → (∀ i ∈ rest, i.frame = true) → c.st = .completed → Zombie c (.closed true :: rest)
  /-- Closed, with the continuation of `transitionToCompleted` pending. -/
  | z1 (stack : List Instr) (n : Nat) (x : Instr) : ZBase c → c.st = .closed → (∀ i ∈ stack.tail, i.frame = true) →
      (∀ i ∈ stack.head?, i.benign = true) → stack.filter Instr.sens = List.replicate n .closedRest ++ [x] →
      (x = .completedRest ∨ x = .completedRest2) → (n = 0 → c.dev = none) → Zombie c stack
  | zf (rest : List Instr) : ZBase c → c.st = .closed → c.dev = none → (∀ i ∈ rest, i.frame = true) → rest.filter Instr.sens = [] →
      Zombie c (.flushing :: rest)
  /-- `Flushing` without a device. -/
  | z2 (stack : List Instr) : ZBase c → c.st = .flushing → c.dev = none → (∀ i ∈ stack.tail, i.frame = true) →
      (∀ i ∈ stack.head?, i.benign = true) → (∀ i ∈ stack.filter Instr.sens, i = .drainRest ∨ i = .flushingRest) → Zombie c stack
  /-- `ReceivingHeaders` without a device, about to use it. -/
  | zp (rest : List Instr) : ZBase c → c.st = .receivingHeaders → c.dev = none → Zombie c (.processInput :: rest)

def Dead (c : Conn) : Prop := c.fault.isSome = true ∧ Weak c.log ∧ ∃ ph, Runs true c.log ph

def LInv (c : Conn) (stack : List Instr) : Prop := Core true c stack ∨ Zombie c stack ∨ Dead c

theorem Inv.linv {c : Conn} {stack : List Instr} (h : Inv true c stack) : LInv c stack := by
  rcases h with h | ⟨h1, h2, h3⟩
  · exact .inl h
  · exact .inr (.inr ⟨by rw [h1]; rfl, h2, h3⟩)

theorem ZBase.congr {c c' : Conn} (h : ZBase c) (e1 : c'.fault = c.fault) (e2 : c'.log = c.log) (e3 : c'.respBuf = c.respBuf) : ZBase c' :=
  ⟨e1.trans h.fault, by rw [e2]; exact h.weak, by rw [e2]; exact h.runs, e3.trans h.resp⟩

/-- Replacing the top by pushed instructions, none of them sensitive. -/
theorem frames_push {i : Instr} {rest push : List Instr} (hf : ∀ j ∈ rest, j.frame = true)
    (hp : ∀ j ∈ push, j.benign = true) (hp' : ∀ j ∈ push.tail, j.frame = true) :
    (∀ j ∈ (push ++ rest).tail, j.frame = true) ∧ (∀ j ∈ (push ++ rest).head?, j.benign = true) := by
  cases push with
  | nil =>
    refine ⟨fun j hj => hf j (List.mem_of_mem_tail hj), fun j hj => frame_benign (hf j ?_)⟩
    simp at hj
    exact List.mem_of_mem_head? hj
  | cons a push =>
    refine ⟨?_, ?_⟩
    · intro j hj
      simp only [List.cons_append, List.tail_cons, List.mem_append] at hj hp'
      rcases hj with hj | hj
      · exact hp' j hj
      · exact hf j hj
    · intro j hj; simp at hj; subst hj; exact hp _ (by simp)

def Quiet (c : Conn) (o : Out) : Prop :=
  o.1.st = c.st ∧ o.1.log = c.log ∧ o.1.fault = c.fault ∧ o.1.respBuf = c.respBuf ∧ (c.dev = none → o.1.dev = none) ∧
    (∀ j ∈ o.2, j.benign = true ∧ j.sens = false) ∧ o.2.tail = []

theorem quiet_refl (c : Conn) : Quiet c (c, []) := by simp [Quiet]

/-- A step in the states `Closed` and `Flushing` by an instruction that is neither a sensitive continuation nor one of
the transitions: the state does not change, nothing is logged, and only harmless instructions are pushed. -/
theorem quiet_step {c : Conn} {i : Instr} (k : Nat) (hst : c.st = .closed ∨ c.st = .flushing) (hb : i.benign = true)
    (hs : i.sens = false) (he : i ≠ .env) (hc : c.st = .flushing → i ≠ .drain ∧ i ≠ .closed true) :
    Quiet c (exec k i c) := by
  have h1 : c.st ≠ .receivingHeaders ∧ c.st ≠ .receivingContent ∧ c.st ≠ .sendingHeaders ∧ c.st ≠ .sendingContent := by
    rcases hst with e | e <;> rw [e] <;> simp
  cases i with
  | env => exact absurd rfl he
  | recvContent | sendHeaders | sendContent | completed | flushing | errorResponse => cases hb
  | completedRest | completedRest2 | drainRest | flushingRest | closedRest => cases hs
  | processInput =>
    have : exec k .processInput c = (c, []) := by show c.processInput = _; unfold Conn.processInput; rw [if_pos ⟨h1.1, h1.2.1⟩]
    rw [this]; exact quiet_refl c
  | flush =>
    show Quiet c (c.flush k)
    unfold Conn.flush
    split
    · exact quiet_refl c
    · rename_i d hd
      split <;> simp [Quiet, Instr.benign, Instr.sens, hd]
  | drain =>
    have hst : c.st = .closed := by
      rcases hst with e | e
      · exact e
      · exact absurd rfl (hc e).1
    have : exec k .drain c = (c, []) := by show c.drain = _; unfold Conn.drain; rw [if_pos (by rw [hst]; simp)]
    rw [this]; exact quiet_refl c
  | closed f =>
    cases f with
    | false => cases hb
    | true =>
      have hst : c.st = .closed := by
        rcases hst with e | e
        · exact e
        · exact absurd rfl (hc e).2
      have : exec k (.closed true) c = (c, []) := by show c.toClosed true = _; unfold Conn.toClosed; rw [if_pos hst]
      rw [this]; exact quiet_refl c
  | sendContentRest =>
    show Quiet c c.sendContentRest
    unfold Conn.sendContentRest
    split <;> simp [Quiet]
  | writeResponse s hds ct =>
    have : exec k (.writeResponse s hds ct) c = (c, []) := by
      show c.writeResponse s hds ct = _; unfold Conn.writeResponse; rw [if_pos h1.2.2.1]
    rw [this]; exact quiet_refl c
  | writeResponseRest ct =>
    show Quiet c (c.writeResponseRest ct)
    obtain ⟨hs, hf, hd, hr⟩ := readView_same c
    unfold Conn.writeResponseRest
    split
    · exact quiet_refl c
    · simp only
      split
      · simp [Quiet, hs.st, hs.log, hf, hr, hd]
      · simp [Quiet, hs.st, hs.log, hf, hr, hd, Instr.benign, Instr.sens]
  | writeHeaders s hds =>
    have : exec k (.writeHeaders s hds) c = (c, []) := by
      show c.writeHeaders s hds = _; unfold Conn.writeHeaders; rw [if_pos h1.2.2.1]
    rw [this]; exact quiet_refl c
  | writeContent ct =>
    have : exec k (.writeContent ct) c = (c, []) := by
      show c.writeContent ct = _; unfold Conn.writeContent; rw [if_pos h1.2.2.2]
    rw [this]; exact quiet_refl c
  | endContent =>
    have : exec k .endContent c = (c, []) := by
      show c.endContent = _; unfold Conn.endContent; rw [if_pos h1.2.2.2]
    rw [this]; exact quiet_refl c

theorem closed_core {c : Conn} {stack : List Instr} (hz : ZBase c) (hst : c.st = .closed) (hf : ∀ i ∈ stack, i.frame = true)
    (hs : ∀ i ∈ stack.filter Instr.sens, i = .drainRest ∨ i = .flushingRest ∨ i = .closedRest) : Core true c stack where
  fault := hz.fault
  frames := fun i hi => hf i (List.mem_of_mem_tail hi)
  sens := by unfold sensOk; rw [if_neg (head_frame hf).1, hst]; exact hs
  dev := fun _ e => absurd hst e
  resp := fun _ => hz.resp
  data := ⟨.closed, hz.runs, (data_frame hf).2 ((settled_closed hst).2 ⟨rfl, hz.weak⟩)⟩

/-- A step of a zombie that has not yet come to use the device. -/
theorem zombie_live {c : Conn} {i : Instr} {rest : List Instr} (k : Nat) (hi : i ≠ .env) (h : Zombie c (i :: rest)) (hlive : c.st ≠ .receivingHeaders) :
    (c.st = .flushing ∧ (exec k i c).1.log = c.log ++ [.closed true 0] ∧ Core true (exec k i c).1 ((exec k i c).2 ++ rest)) ∨ Zombie (exec k i c).1 ((exec k i c).2 ++ rest) := by
  generalize hS : i :: rest = stack at h
  cases h with
  | z0 rest' hc hfr hst =>
    obtain ⟨rfl, rfl⟩ := List.cons.inj hS
    obtain ⟨ph, hruns, hdata⟩ := hc.data
    have hset : Settled true c ph := (data_frame hfr).1 hdata
    right
    have hx : exec k (.closed true) c = ({ c with st := .closed }.emit (.closed true (match c.dev with | some d => d.pending | none => 0)), [.env, .closedRest]) := by
      show c.toClosed true = _; unfold Conn.toClosed; rw [if_neg (by rw [hst]; simp)]; rfl
    rw [hx]
    have hsens : rest.filter Instr.sens = [if c.viewsValid then .completedRest else .completedRest2] := by
      have := hc.sens
      unfold sensOk at this
      rw [if_neg (head_frame hfr).1, hst] at this
      exact this
    refine .z1 _ 1 (if c.viewsValid then .completedRest else .completedRest2) ⟨hc.fault, weak_neutral (log := c.log) (settled_weak hset) trivial, ?_, ?_⟩ rfl ?_ ?_ ?_ ?_ (by simp)
    · refine .step _ _ _ _ hruns (.forced _ _ ?_ (settled_not_ended hset))
      intro e
      have := settled_closed_iff hset e
      rw [hst] at this; cases this
    · exact hc.resp (head_frame hfr).2.1
    · simp only [List.cons_append, List.nil_append, List.tail_cons, List.mem_cons]
      rintro j (rfl | hj)
      · rfl
      · exact hfr j hj
    · simp [Instr.benign]
    · rw [List.filter_append, hsens]; simp [List.filter_cons, Instr.sens]
    · split <;> simp
  | z1 stack n x hz hst hfr hbn hsens hx hdev =>
    subst hS
    simp only [List.tail_cons] at hfr
    have hb : i.benign = true := hbn i (by simp)
    by_cases hs : i.sens = true
    · rw [List.filter_cons, if_pos hs] at hsens
      cases n with
      | zero =>
        simp only [List.replicate_zero, List.nil_append, List.cons.injEq] at hsens
        obtain ⟨rfl, hrest⟩ := hsens
        have hd := hdev rfl
        rcases hx with rfl | rfl
        · -- completedRest
          show (c.st = .flushing ∧ c.completedRest.1.log = c.log ++ [.closed true 0] ∧ Core true c.completedRest.1 (c.completedRest.2 ++ rest)) ∨ Zombie c.completedRest.1 (c.completedRest.2 ++ rest)
          unfold Conn.completedRest
          simp only
          split
          · right
            refine .z1 _ 0 .completedRest2 (hz.congr rfl rfl rfl) hst ?_ ?_ ?_ (.inr rfl) (fun _ => hd)
            · simp only [List.cons_append, List.nil_append, List.tail_cons, List.mem_cons]
              rintro j (rfl | hj)
              · rfl
              · exact hfr j hj
            · simp [Instr.benign]
            · rw [List.filter_append, hrest]; simp [List.filter_cons, Instr.sens]
          · right
            exact .zf rest (hz.congr rfl rfl rfl) hst hd hfr hrest
        · show (c.st = .flushing ∧ c.completedRest2.1.log = c.log ++ [.closed true 0] ∧ Core true c.completedRest2.1 (c.completedRest2.2 ++ rest)) ∨ Zombie c.completedRest2.1 (c.completedRest2.2 ++ rest)
          unfold Conn.completedRest2 Conn.toReceivingHeaders
          rw [if_neg (by rw [hst]; simp)]
          right
          exact .zp rest (hz.congr rfl rfl rfl) rfl hd
      | succ n =>
        rw [List.replicate_succ, List.cons_append, List.cons.injEq] at hsens
        obtain ⟨rfl, hrest⟩ := hsens
        right
        obtain ⟨f1, f2⟩ := frames_push (i := .env) (push := []) hfr (by simp) (by simp)
        exact .z1 _ n x (hz.congr rfl rfl rfl) hst f1 f2 hrest hx (fun _ => rfl)
    · have hs : i.sens = false := by simpa using hs
      obtain ⟨q1, q2, q3, q4, q5, q6, q7⟩ := quiet_step k (.inl hst) hb hs hi (by rw [hst]; simp)
      rw [List.filter_cons, if_neg (by simp [hs])] at hsens
      obtain ⟨f1, f2⟩ := frames_push (i := i) hfr (fun j hj => (q6 j hj).1) (by rw [q7]; simp)
      right
      refine .z1 _ n x (hz.congr q3 q2 q4) (q1.trans hst) f1 f2 ?_ hx (fun e => q5 (hdev e))
      rw [List.filter_append, hsens]
      have : ((exec k i c).2).filter Instr.sens = [] := by
        rw [List.filter_eq_nil_iff]; intro j hj; simp [(q6 j hj).2]
      rw [this]; rfl
  | zf rest' hz hst hd hfr hsens =>
    obtain ⟨rfl, rfl⟩ := List.cons.inj hS
    right
    have hx : exec k .flushing c = ({ c with st := .flushing }, [.drain, .flushingRest]) := by
      show c.toFlushing = _; unfold Conn.toFlushing; rw [if_neg (by rw [hst]; simp)]
    rw [hx]
    refine .z2 _ (hz.congr rfl rfl rfl) rfl hd ?_ ?_ ?_
    · simp only [List.cons_append, List.nil_append, List.tail_cons, List.mem_cons]
      rintro j (rfl | hj)
      · rfl
      · exact hfr j hj
    · simp [Instr.benign]
    · rw [List.filter_append, hsens]; simp [List.filter_cons, Instr.sens]
  | z2 stack hz hst hd hfr hbn hsens =>
    subst hS
    simp only [List.tail_cons] at hfr
    have hb : i.benign = true := hbn i (by simp)
    have hmem : ∀ j ∈ rest.filter Instr.sens, j = .drainRest ∨ j = .flushingRest := by
      intro j hj
      apply hsens
      rw [List.filter_cons]
      split
      · exact List.mem_cons_of_mem _ hj
      · exact hj
    by_cases hs : i.sens = true
    · have := hsens i (by rw [List.filter_cons, if_pos hs]; simp)
      obtain ⟨f1, f2⟩ := frames_push (i := .env) (push := []) hfr (by simp) (by simp)
      right
      rcases this with rfl | rfl
      · have : exec k .drainRest c = (c, []) := by show c.drainRest = _; unfold Conn.drainRest; rw [hd]
        rw [this]
        exact .z2 _ hz hst hd f1 f2 hmem
      · have : exec k .flushingRest c = (c, []) := by show c.flushingRest = _; unfold Conn.flushingRest; rw [if_pos hst, hd]
        rw [this]
        exact .z2 _ hz hst hd f1 f2 hmem
    · have hs : i.sens = false := by simpa using hs
      by_cases hdr : i = .drain
      · subst hdr
        have : exec k .drain c = (c, [.flush, .drainRest]) := by show c.drain = _; unfold Conn.drain; rw [if_neg (by rw [hst]; simp)]
        rw [this]
        right
        refine .z2 _ hz hst hd ?_ ?_ ?_
        · simp only [List.cons_append, List.nil_append, List.tail_cons, List.mem_cons]
          rintro j (rfl | hj)
          · rfl
          · exact hfr j hj
        · simp [Instr.benign]
        · intro j hj
          simp only [List.cons_append, List.nil_append, List.filter_cons] at hj
          simp [Instr.sens] at hj
          rcases hj with rfl | hj
          · exact .inl rfl
          · exact hmem j (List.mem_filter.2 hj)
      · by_cases hcl : i = .closed true
        · subst hcl
          have : exec k (.closed true) c = ({ c with st := .closed }.emit (.closed true 0), [.env, .closedRest]) := by
            show c.toClosed true = _; unfold Conn.toClosed; rw [if_neg (by rw [hst]; simp), hd]
          rw [this]
          refine .inl ⟨hst, rfl, ?_⟩
          refine closed_core ⟨hz.fault, weak_neutral (log := c.log) hz.weak trivial, .step _ _ _ _ hz.runs (.again rfl), hz.resp⟩ rfl ?_ ?_
          · simp only [List.cons_append, List.nil_append, List.mem_cons]
            rintro j (rfl | rfl | hj)
            · rfl
            · rfl
            · exact hfr j hj
          · intro j hj
            simp only [List.cons_append, List.nil_append, List.filter_cons] at hj
            simp [Instr.sens] at hj
            rcases hj with rfl | hj
            · exact .inr (.inr rfl)
            · exact (hmem j (List.mem_filter.2 hj)).imp_right .inl
        · obtain ⟨q1, q2, q3, q4, q5, q6, q7⟩ := quiet_step k (.inr hst) hb hs hi (fun _ => ⟨hdr, hcl⟩)
          obtain ⟨f1, f2⟩ := frames_push (i := i) hfr (fun j hj => (q6 j hj).1) (by rw [q7]; simp)
          right
          refine .z2 _ (hz.congr q3 q2 q4) (q1.trans hst) (q5 hd) f1 f2 ?_
          rw [List.filter_append]
          have : ((exec k i c).2).filter Instr.sens = [] := by
            rw [List.filter_eq_nil_iff]; intro j hj; simp [(q6 j hj).2]
          rw [this]; exact hmem
  | zp rest' hz hst hd => exact absurd hst hlive

theorem zombie_exec {c : Conn} {i : Instr} {rest : List Instr} (k : Nat) (hi : i ≠ .env) (h : Zombie c (i :: rest)) :
    LInv (exec k i c).1 ((exec k i c).2 ++ rest) := by
  by_cases hlive : c.st = .receivingHeaders
  · generalize hS : i :: rest = stack at h
    cases h with
    | z0 _ _ _ e => rw [hlive] at e; cases e
    | z1 _ _ _ _ e => rw [hlive] at e; cases e
    | zf _ _ e => rw [hlive] at e; cases e
    | z2 _ _ e => rw [hlive] at e; cases e
    | zp rest' hz hst hd =>
      obtain ⟨rfl, rfl⟩ := List.cons.inj hS
      right; right
      have hx : exec k .processInput c = ({ c with fault := some .nullDevice }, []) := by
        show c.processInput = _; unfold Conn.processInput; rw [if_neg (by rw [hst]; simp), hd]
      rw [hx]
      exact ⟨rfl, hz.weak, _, hz.runs⟩
  · rcases zombie_live k hi h hlive with ⟨-, -, h⟩ | h
    · exact .inl h
    · exact .inr (.inl h)

theorem call_benign (a : Call) : a.instr.benign = true ∧ a.instr.sens = false := by cases a <;> exact ⟨rfl, rfl⟩

/-- Foreign code in control of a zombie. -/
theorem zombie_env {s : Conf} (he : s.inEnv = true) (h : Zombie s.c s.stack) :
    (∃ n x, ZBase s.c ∧ s.c.st = .closed ∧ (∀ i ∈ s.stack, i.frame = true) ∧
      s.stack.filter Instr.sens = List.replicate n .closedRest ++ [x] ∧ (x = .completedRest ∨ x = .completedRest2) ∧ (n = 0 → s.c.dev = none)) ∨
    (ZBase s.c ∧ s.c.st = .flushing ∧ s.c.dev = none ∧ (∀ i ∈ s.stack, i.frame = true) ∧
      (∀ i ∈ s.stack.filter Instr.sens, i = .drainRest ∨ i = .flushingRest)) := by
  have fr : (∀ i ∈ s.stack.tail, i.frame = true) → ∀ i ∈ s.stack, i.frame = true := by
    intro hf
    rcases (inEnv_iff s).1 he with e | ⟨rest, e⟩
    · rw [e]; simp
    · rw [e] at hf ⊢
      intro i hi
      rcases List.mem_cons.1 hi with rfl | hi
      · rfl
      · exact hf i hi
  generalize hst : s.stack = st at h
  cases h with
  | z0 rest _ _ _ => rcases (inEnv_iff s).1 he with e | ⟨r, e⟩ <;> rw [hst] at e <;> cases e
  | z1 _ n x h1 h2 h3 h4 h5 h6 h7 => subst hst; exact .inl ⟨n, x, h1, h2, fr h3, h5, h6, h7⟩
  | zf rest _ _ _ _ _ => rcases (inEnv_iff s).1 he with e | ⟨r, e⟩ <;> rw [hst] at e <;> cases e
  | z2 _ h1 h2 h3 h4 h5 h6 => subst hst; exact .inr ⟨h1, h2, h3, fr h4, h6⟩
  | zp rest _ _ _ => rcases (inEnv_iff s).1 he with e | ⟨r, e⟩ <;> rw [hst] at e <;> cases e

theorem z1_of {c : Conn} {stack : List Instr} {n : Nat} {x : Instr} (hz : ZBase c) (hst : c.st = .closed)
    (hf : ∀ i ∈ stack, i.frame = true) (hs : stack.filter Instr.sens = List.replicate n .closedRest ++ [x])
    (hx : x = .completedRest ∨ x = .completedRest2) (hd : n = 0 → c.dev = none) : Zombie c stack := by
  obtain ⟨f1, f2⟩ := frames_push (i := .env) (push := []) hf (by simp) (by simp)
  exact .z1 _ n x hz hst f1 f2 hs hx hd

theorem z2_of {c : Conn} {stack : List Instr} (hz : ZBase c) (hst : c.st = .flushing) (hd : c.dev = none)
    (hf : ∀ i ∈ stack, i.frame = true) (hs : ∀ i ∈ stack.filter Instr.sens, i = .drainRest ∨ i = .flushingRest) : Zombie c stack := by
  obtain ⟨f1, f2⟩ := frames_push (i := .env) (push := []) hf (by simp) (by simp)
  exact .z2 _ hz hst hd f1 f2 hs

/-- A change of fields the zombie invariant does not look at. -/
theorem zombie_same {s : Conf} {c' : Conn} (he : s.inEnv = true) (h : Zombie s.c s.stack) (e1 : c'.fault = s.c.fault)
    (e2 : c'.log = s.c.log) (e3 : c'.respBuf = s.c.respBuf) (e4 : c'.st = s.c.st) (e5 : s.c.dev = none → c'.dev = none) :
    Zombie c' s.stack := by
  rcases zombie_env he h with ⟨n, x, h1, h2, h3, h4, h5, h6⟩ | ⟨h1, h2, h3, h4, h5⟩
  · exact z1_of (h1.congr e1 e2 e3) (e4.trans h2) h3 h4 h5 (fun e => e5 (h6 e))
  · exact z2_of (h1.congr e1 e2 e3) (e4.trans h2) (e5 h3) h4 h5

theorem zombie_call {s : Conf} {c : Conn} (he : s.inEnv = true) (h : Zombie c s.stack) (a : Call) : Zombie c (a.instr :: s.stack) := by
  obtain ⟨b1, b2⟩ := call_benign a
  rcases zombie_env (s := ⟨c, s.stack⟩) he h with ⟨n, x, h1, h2, h3, h4, h5, h6⟩ | ⟨h1, h2, h3, h4, h5⟩
  · obtain ⟨f1, f2⟩ := frames_push (i := .env) (push := [a.instr]) h3 (by simpa using b1) (by simp)
    refine .z1 _ n x h1 h2 f1 f2 ?_ h5 h6
    rw [List.filter_cons, if_neg (by simp [b2])]; exact h4
  · obtain ⟨f1, f2⟩ := frames_push (i := .env) (push := [a.instr]) h4 (by simpa using b1) (by simp)
    refine .z2 _ h1 h2 h3 f1 f2 ?_
    rw [List.filter_cons, if_neg (by simp [b2])]; exact h5

theorem zombie_step {s s' : Conf} {l : Label} (h : Zombie s.c s.stack) (hlive : s.c.st ≠ .receivingHeaders) (hp : Proper s l) (hs : s.step l = some s') :
    (s.c.st = .flushing ∧ s'.c.log = s.c.log ++ [.closed true 0] ∧ Core true s'.c s'.stack) ∨ Zombie s'.c s'.stack := by
  have hf : s.c.fault = none := by
    generalize s.stack = st at h
    cases h with
    | z0 _ h _ _ => exact h.fault
    | z1 _ _ _ h => exact h.fault
    | zf _ h => exact h.fault
    | z2 _ h => exact h.fault
    | zp _ h => exact h.fault
  unfold Conf.step at hs
  rw [hf] at hs
  simp only [Option.isSome_none, Bool.false_eq_true, ↓reduceIte] at hs
  cases l with
  | tau k =>
    simp only at hs
    split at hs
    · cases hs
    · cases hs
    · rename_i i rest hne heq
      simp only [Option.some.injEq] at hs
      subst hs
      rw [heq] at h
      exact zombie_live k (by intro e; exact hne e) h hlive
  | call a =>
    simp only at hs
    split at hs
    · rename_i he
      simp only [Option.some.injEq] at hs
      subst hs
      exact .inr (zombie_call he h a)
    · cases hs
  | ret =>
    simp only at hs
    split at hs
    · rename_i rest heq
      simp only [Option.some.injEq] at hs
      subst hs
      have he : s.inEnv = true := (inEnv_iff s).2 (.inr ⟨rest, heq⟩)
      right
      rcases zombie_env he h with ⟨n, x, h1, h2, h3, h4, h5, h6⟩ | ⟨h1, h2, h3, h4, h5⟩
      · refine z1_of h1 h2 (fun i hi => h3 i (by rw [heq]; exact List.mem_cons_of_mem _ hi)) ?_ h5 h6
        rw [heq] at h4; simpa [List.filter_cons, Instr.sens] using h4
      · refine z2_of h1 h2 h3 (fun i hi => h4 i (by rw [heq]; exact List.mem_cons_of_mem _ hi)) ?_
        rw [heq, List.filter_cons, if_neg (by simp [Instr.sens])] at h5; exact h5
    · cases hs
  | recv bs =>
    simp only at hs
    split at hs
    · rename_i he
      split at hs
      · rename_i d hd
        simp only [Option.some.injEq] at hs
        subst hs
        right
        rcases zombie_env he h with ⟨n, x, h1, h2, h3, h4, h5, h6⟩ | ⟨h1, h2, h3, h4, h5⟩
        · refine z1_of ⟨h1.fault, weak_recv h1.weak bs, .step _ _ _ _ h1.runs (.recv _ _), h1.resp⟩ h2 h3 h4 h5 (fun e => ?_)
          have := h6 e
          rw [hd] at this; cases this
        · rw [hd] at h3; cases h3
      · cases hs
    · cases hs
  | bytesWritten k =>
    simp only at hs
    split at hs
    · rename_i he
      split at hs
      · rename_i d hd
        simp only [Option.some.injEq] at hs
        subst hs
        right
        have key : Zombie { s.c with dev := some { d with pending := d.pending - k } } s.stack :=
          zombie_same he h rfl rfl rfl rfl (fun e => by rw [hd] at e; cases e)
        show Zombie _ (if d.drainConn = true then _ else _)
        split
        · exact zombie_call he key .drain
        · exact key
      · cases hs
    · cases hs
  | init =>
    simp only at hs
    split at hs
    · rename_i he
      obtain ⟨p1, p2⟩ := hp rfl
      rcases zombie_env he h with ⟨n, x, h1, h2, h3, h4, h5, h6⟩ | ⟨h1, h2, h3, h4, h5⟩
      · rw [p1] at h4; simp at h4
      · rw [h2] at p2; simp at p2
    · cases hs
  | readParams =>
    simp only at hs
    split at hs
    · rename_i he
      simp only [Option.some.injEq] at hs
      subst hs
      right
      show Zombie s.c.requestParams s.stack
      unfold Conn.requestParams
      split
      · exact zombie_same he h rfl rfl rfl rfl id
      · exact h
    · cases hs
  | setParam n v =>
    simp only at hs
    split at hs
    · rename_i he
      simp only [Option.some.injEq] at hs
      subst hs
      right
      show Zombie (s.c.setRequestParam n v) s.stack
      unfold Conn.setRequestParam Conn.requestParams
      split
      · exact zombie_same he h rfl rfl rfl rfl id
      · exact zombie_same he h rfl rfl rfl rfl id
    · cases hs
  | readDecoded x =>
    simp only at hs
    split at hs
    · rename_i he
      simp only [Option.some.injEq] at hs
      subst hs
      right
      show Zombie (s.c.readDecoded x) s.stack
      unfold Conn.readDecoded
      cases x <;> simp only <;> split <;> first | exact h | exact zombie_same he h rfl rfl rfl rfl id
    · cases hs

theorem linv_step {s s' : Conf} {l : Label} (h : LInv s.c s.stack) (hp : Proper s l) (hs : s.step l = some s') :
    LInv s'.c s'.stack := by
  rcases h with h | h | h
  · by_cases hc : l = .call .close ∧ s.c.st = .completed
    · obtain ⟨rfl, hst⟩ := hc
      unfold Conf.step at hs
      rw [h.fault] at hs
      simp only [Option.isSome_none, Bool.false_eq_true, ↓reduceIte] at hs
      split at hs
      · rename_i he
        simp only [Option.some.injEq] at hs
        subst hs
        exact .inr (.inl (.z0 _ h (inEnv_frames he h) hst))
      · cases hs
    · exact (inv_step (.inl h) ⟨hp, fun e hst => hc ⟨e, hst⟩⟩ hs).linv
  · by_cases hlive : s.c.st = .receivingHeaders
    · have hS := h
      generalize hst : s.stack = stack at hS
      cases hS with
      | z0 _ _ _ e => rw [hlive] at e; cases e
      | z1 _ _ _ _ e => rw [hlive] at e; cases e
      | zf _ _ e => rw [hlive] at e; cases e
      | z2 _ _ e => rw [hlive] at e; cases e
      | zp rest hz _ hd =>
        unfold Conf.step at hs
        rw [hz.fault] at hs
        simp only [Option.isSome_none, Bool.false_eq_true, ↓reduceIte] at hs
        cases l with
        | tau k =>
          simp only [hst] at hs
          simp only [Option.some.injEq] at hs
          subst hs
          rw [hst] at h
          exact zombie_exec k (by simp) h
        | ret => simp only [hst] at hs; cases hs
        | call _ | recv _ | bytesWritten _ | init | readParams | setParam _ _ | readDecoded _ =>
          simp only [show s.inEnv = false by simp [Conf.inEnv, hst]] at hs
          cases hs
    · rcases zombie_step h hlive hp hs with ⟨-, -, h⟩ | h
      · exact .inl h
      · exact .inr (.inl h)
  · unfold Conf.step at hs
    rw [if_pos h.1] at hs
    cases hs

theorem linv_reach {s : Conf} (h : Reach Proper s) : LInv s.c s.stack := by
  induction h with
  | start => exact (inv_start (lo := true)).linv
  | step s s' l _ hp hs ih => exact linv_step ih hp hs

/-- Every history is justified and follows the protocol. -/
theorem reach_log {s : Conf} (h : Reach Proper s) : Weak s.c.log ∧ ∃ ph, Runs true s.c.log ph := by
  rcases linv_reach h with h | h | h
  · obtain ⟨ph, h1, -⟩ := h.data
    exact ⟨core_weak h, ph, h1⟩
  · generalize s.stack = st at h
    cases h with
    | z0 _ h _ _ => obtain ⟨ph, h1, -⟩ := h.data; exact ⟨core_weak h, ph, h1⟩
    | z1 _ _ _ h => exact ⟨h.weak, _, h.runs⟩
    | zf _ h => exact ⟨h.weak, _, h.runs⟩
    | z2 _ h => exact ⟨h.weak, _, h.runs⟩
    | zp _ h => exact ⟨h.weak, _, h.runs⟩
  · exact h.2

/-- In a configuration where foreign code is in control and the connection is in use, the invariant holds. -/
theorem reach_core {s : Conf} (h : Reach Proper s) (he : s.inEnv = true) (hf : s.c.fault = none)
    (h1 : s.c.st ≠ .closed) (h2 : s.c.st = .flushing → s.c.dev.isSome = true) : Core true s.c s.stack := by
  rcases linv_reach h with h | h | h
  · exact h
  · rcases zombie_env he h with ⟨n, x, z1, z2, -⟩ | ⟨z1, z2, z3, -⟩
    · exact absurd z2 h1
    · have := h2 z2; rw [z3] at this; cases this
  · rw [Dead, hf] at h; cases h.1

theorem reach_mono {A B : Conf → Label → Prop} (hab : ∀ s l, A s l → B s l) {s : Conf} (h : Reach A s) : Reach B s := by
  induction h with
  | start => exact .start
  | step s s' l _ ha hs ih => exact .step s s' l ih (hab _ _ ha) hs

end Pillow
