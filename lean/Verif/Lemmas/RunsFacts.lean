import Verif.Lemmas.Run
set_option linter.unusedSimpArgs false
set_option linter.unusedVariables false
/-!
# Reading facts off `Runs`
-/
namespace Pillow
open Spec

variable {lo : Bool}

/-- A sequence of allowed events. -/
inductive Path (lo : Bool) : Phase → List Ev → Phase → Prop where
  | nil (p : Phase) : Path lo p [] p
  | cons (p q r : Phase) (e : Ev) (es : List Ev) : Next lo p e q → Path lo q es r → Path lo p (e :: es) r

theorem Path.snoc {p q r : Phase} {es : List Ev} {e : Ev} (h : Path lo p es q) (hn : Next lo q e r) : Path lo p (es ++ [e]) r := by
  induction h with
  | nil p => exact .cons _ _ _ _ _ hn (.nil _)
  | cons p q r' e' es h1 h2 ih => exact .cons _ _ _ _ _ h1 (ih hn)

theorem Path.append {p r : Phase} {a b : List Ev} (h : Path lo p (a ++ b) r) : ∃ q, Path lo p a q ∧ Path lo q b r := by
  induction a generalizing p with
  | nil => exact ⟨p, .nil _, h⟩
  | cons e a ih =>
    cases h with
    | cons _ q _ _ _ h1 h2 =>
      obtain ⟨q', k1, k2⟩ := ih h2
      exact ⟨q', .cons _ _ _ _ _ h1 k1, k2⟩

theorem runs_path {log : List Ev} {p : Phase} (h : Runs lo log p) : Path lo .off log p := by
  induction h with
  | start => exact .nil _
  | step log p p' e _ hn ih => exact ih.snoc hn

theorem path_runs {p0 p : Phase} {es : List Ev} (h : Path lo p0 es p) : ∀ {log}, Runs lo log p0 → Runs lo (log ++ es) p := by
  induction h with
  | nil p => intro log hr; simpa using hr
  | cons p q r e es h1 h2 ih => intro log hr; simpa using ih (.step _ _ _ _ hr h1)

/-- The run up to a point of the log, and the run from there on. -/
theorem runs_split {a b : List Ev} {p : Phase} (h : Runs lo (a ++ b) p) : ∃ q, Runs lo a q ∧ Path lo q b p := by
  obtain ⟨q, h1, h2⟩ := (runs_path h).append
  exact ⟨q, by simpa using path_runs h1 .start, h2⟩

theorem next_det {p q q' : Phase} {e : Ev} (h : Next lo p e q) (h' : Next lo p e q') : q = q' := by
  cases h <;> cases h' <;> rfl

theorem path_det {p q q' : Phase} {es : List Ev} (h : Path lo p es q) (h' : Path lo p es q') : q = q' := by
  induction h with
  | nil => cases h'; rfl
  | cons p x r e es h1 h2 ih =>
    cases h' with
    | cons _ y _ _ _ k1 k2 => rw [next_det h1 k1] at ih; exact ih k2

theorem runs_det {log : List Ev} {p q : Phase} (h : Runs lo log p) (h' : Runs lo log q) : p = q :=
  path_det (runs_path h) (runs_path h')

/-- A set of phases that only certain events leave. -/
theorem path_stays (I : Phase → Prop) (E : Ev → Prop) (hI : ∀ p e q, Next lo p e q → I p → ¬ E e → I q) {p q : Phase}
    {es : List Ev} (h : Path lo p es q) (hp : I p) (he : ∀ e ∈ es, ¬ E e) : I q := by
  induction h with
  | nil => exact hp
  | cons p x r e es h1 _ ih => exact ih (hI _ _ _ h1 hp (he e (by simp))) (fun e' he' => he e' (by simp [he']))

/-- What can happen while a set of phases is not left. -/
theorem path_events (I : Phase → Prop) (E : Ev → Prop) (F : Ev → Prop) (hI : ∀ p e q, Next lo p e q → I p → ¬ E e → I q ∧ F e) {p q : Phase}
    {es : List Ev} (h : Path lo p es q) (hp : I p) (he : ∀ e ∈ es, ¬ E e) : ∀ e ∈ es, F e := by
  induction h with
  | nil => simp
  | cons p x r e es h1 _ ih =>
    obtain ⟨k1, k2⟩ := hI _ _ _ h1 hp (he e (by simp))
    intro e' he'
    rcases List.mem_cons.1 he' with rfl | he'
    · exact k2
    · exact ih k1 (fun e'' he'' => he e'' (by simp [he''])) e' he'

/-- The request being handled. -/
def Spec.Phase.req : Phase → Option ReqView
  | .busy r | .sending r _ _ | .ended r _ => some r
  | _ => none

theorem req_last {log : List Ev} {ph : Phase} (hr : Runs lo log ph) : ∀ r, ph.req = some r → (readys log).getLast? = some r := by
  induction hr with
  | start => intro r h; cases h
  | step log p p' e hr hn ih =>
    intro r h
    rw [readys_snoc]
    have key : ∀ {r'}, p.req = some r' → e ≠ .ready r' → Ev.request e = none → p'.req = some r' ∨ p'.req = none →
        (readys log ++ (Ev.request e).toList).getLast? = some r := by
      intro r' h1 h2 h3 h4
      rw [h3, Option.toList_none, List.append_nil, ih r' h1]
      rcases h4 with h4 | h4 <;> rw [h4] at h <;> simp_all
    cases hn with
    | init p hp => cases h
    | recv p bs => exact key h (by simp) rfl (.inl h)
    | interim => cases h
    | ready i r' _ => cases h; simp [Ev.request]
    | error code => cases h
    | head r' hd _ => exact key rfl (by simp) rfl (by split <;> simp [Phase.req])
    | body r' hd n bs _ _ _ _ _ => exact key rfl (by simp) rfl (by split <;> simp [Phase.req])
    | chunk r' hd n bs _ _ _ _ => exact key rfl (by simp) rfl (by simp [Phase.req])
    | lastChunk r' hd n _ _ => exact key rfl (by simp) rfl (by simp [Phase.req])
    | completed r' hd => exact key rfl (by simp) rfl (by unfold Phase.after; split <;> simp [Phase.req])
    | completedOpen r' hd n _ _ _ => exact key rfl (by simp) rfl (by unfold Phase.after; split <;> simp [Phase.req])
    | forced p u _ _ => cases h
    | drained => cases h
    | again _ => cases h

/-- Only completion or closing ends the handling of a request. -/
theorem req_stays {p q : Phase} {e : Ev} (hn : Next lo p e q) (hp : p.req.isSome = true) (h1 : e ≠ .completed)
    (h2 : ∀ f u, e ≠ .closed f u) : q.req = p.req ∧ e ≠ .init ∧ ∀ r, e ≠ .ready r := by
  cases hn with
  | init p hp' => rcases hp' with rfl | rfl <;> cases hp
  | recv p bs => simp
  | interim => cases hp
  | ready i r' _ => cases hp
  | error code => cases hp
  | head r' hd _ => refine ⟨?_, by simp, by simp⟩; split <;> rfl
  | body r' hd n bs _ _ _ _ _ => refine ⟨?_, by simp, by simp⟩; split <;> rfl
  | chunk r' hd n bs _ _ _ _ => exact ⟨rfl, by simp, by simp⟩
  | lastChunk r' hd n _ _ => exact ⟨rfl, by simp, by simp⟩
  | completed r' hd => exact absurd rfl h1
  | completedOpen r' hd n _ _ _ => exact absurd rfl h1
  | forced p u _ _ => exact absurd rfl (h2 _ _)
  | drained => exact absurd rfl (h2 _ _)
  | again _ => cases hp

/-- A connection that is in use by foreign code: phase and state agree. -/
theorem reach_phase {s : Conf} (h : Reach Proper s) (he : s.inEnv = true) (hf : s.c.fault = none) :
    ∃ ph, Runs true s.c.log ph ∧ (∀ r hd, ph ≠ .ended r hd) ∧
      (Settled true s.c ph ∧ Core true s.c s.stack ∨ ph = .closed ∧ (s.c.st = .closed ∨ (s.c.st = .flushing ∧ s.c.dev = none))) := by
  rcases linv_reach h with h | h | h
  · obtain ⟨ph, h1, h2⟩ := h.data
    have hs := (inEnv_settled he).1 h2
    exact ⟨ph, h1, settled_not_ended hs, .inl ⟨hs, h⟩⟩
  · rcases zombie_env he h with ⟨n, x, z1, z2, -⟩ | ⟨z1, z2, z3, -⟩
    · exact ⟨.closed, z1.runs, by simp, .inr ⟨rfl, .inl z2⟩⟩
    · exact ⟨.closed, z1.runs, by simp, .inr ⟨rfl, .inr ⟨z2, z3⟩⟩⟩
  · rw [Dead, hf] at h; cases h.1

theorem settled_sending {b : Bool} {c : Conn} {r : ReqView} {h : RespHead} {n : Nat} (hs : Settled b c (.sending r h n)) :
    c.st = .sendingContent ∧ r = c.req ∧ Resp c h n ∧ h.len ≠ 0 ∧ c.req.method ≠ b!"HEAD" ∧
      (0 < h.len → (n : Int) < h.len) ∧ c.viewsValid = true := by
  cases hst : c.st with
  | uninitialized => rw [Settled, hst] at hs; simp at hs
  | receivingHeaders => have := (settled_recvH hst).1 hs; simp at this
  | receivingContent => obtain ⟨_, _, _, _, k, _⟩ := (settled_recvC hst).1 hs; cases k.phase
  | sendingHeaders => have := (settled_sendH hst).1 hs; simp at this
  | sendingContent =>
    obtain ⟨h', n', e, h1, h2, h3, h4, h5, h6⟩ := (settled_sendC hst).1 hs
    cases e
    exact ⟨rfl, rfl, h1, h3, h4, h5, h6⟩
  | completed => obtain ⟨e, -⟩ := (settled_completed hst).1 hs; split at e <;> cases e
  | flushing => have := (settled_flushing hst).1 hs; simp at this
  | closed => have := (settled_closed hst).1 hs; simp at this

theorem settled_busy {b : Bool} {c : Conn} {r : ReqView} (hs : Settled b c (.busy r)) :
    c.st = .sendingHeaders ∧ r = c.req ∧ c.http11 = (c.req.version == b!"HTTP/1.1") ∧
      c.chunked = false ∧ c.respLen = -1 ∧ c.viewsValid = true ∧ c.sent = 0 := by
  cases hst : c.st with
  | uninitialized => rw [Settled, hst] at hs; simp at hs
  | receivingHeaders => have := (settled_recvH hst).1 hs; simp at this
  | receivingContent => obtain ⟨_, _, _, _, k, _⟩ := (settled_recvC hst).1 hs; cases k.phase
  | sendingHeaders =>
    obtain ⟨e, h1, h2⟩ := (settled_sendH hst).1 hs
    cases e
    exact ⟨rfl, rfl, h2⟩
  | sendingContent => obtain ⟨h', n', e, -⟩ := (settled_sendC hst).1 hs; cases e
  | completed => obtain ⟨e, -⟩ := (settled_completed hst).1 hs; split at e <;> cases e
  | flushing => have := (settled_flushing hst).1 hs; simp at this
  | closed => have := (settled_closed hst).1 hs; simp at this

end Pillow
