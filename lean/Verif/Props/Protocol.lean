import Verif.Lemmas.RunsFacts
import Verif.Lemmas.ConnDoomed
set_option linter.unusedSimpArgs false
set_option linter.unusedVariables false
/-!
# C11, C15, C16, C17: the order of the signals, crashes, calls in the wrong state

`s.c.log` is everything that happened on the connection object since it was constructed.
-/
namespace Pillow.Props
open Pillow Pillow.Spec Pillow.Doom

def IsClosed (e : Ev) : Prop := ∃ f u, e = .closed f u

/-- C15: between two `requestReady` there is a `requestCompleted` or a `closed`. -/
theorem C15_between (s : Conf) (h : Reach Proper s) (a b d : List Ev) (r r' : ReqView)
    (e : s.c.log = a ++ .ready r :: b ++ .ready r' :: d) : ∃ e ∈ b, e = .completed ∨ IsClosed e := by
  obtain ⟨-, ph, hr⟩ := reach_log h
  rw [e, List.append_assoc] at hr
  obtain ⟨q, -, h1⟩ := runs_split hr
  rw [List.cons_append] at h1
  cases h1 with
  | cons _ q1 _ _ _ n1 h2 =>
  obtain ⟨q2, h3, h4⟩ := h2.append
  cases h4 with
  | cons _ q3 _ _ _ n2 h5 =>
  apply Classical.byContradiction
  intro hne
  have hI : q2.req.isSome = true := by
    refine path_stays (fun p => p.req.isSome = true) (fun e => e = .completed ∨ IsClosed e) ?_ h3 ?_ ?_
    · intro p e q hn hp he
      rw [(req_stays hn hp (fun k => he (.inl k)) (fun f u k => he (.inr ⟨f, u, k⟩))).1]; exact hp
    · cases n1; rfl
    · exact fun e he hc => hne ⟨e, he, hc⟩
  cases n2
  cases hI

/-- C15: `requestCompleted` is emitted only after a `requestReady`, once for each. -/
theorem C15_completed (s : Conf) (h : Reach Proper s) (a b : List Ev) (e : s.c.log = a ++ .completed :: b) :
    ∃ a1 r a2, a = a1 ++ .ready r :: a2 ∧ ∀ e ∈ a2, e ≠ .completed ∧ ¬ IsClosed e ∧ e ≠ .init ∧ ∀ r', e ≠ .ready r' := by
  obtain ⟨-, ph, hr⟩ := reach_log h
  rw [e] at hr
  obtain ⟨q, h0, h1⟩ := runs_split hr
  have hq : q.req.isSome = true := by
    cases h1 with
    | cons _ q1 _ _ _ n1 h2 => cases n1 <;> rfl
  clear h1 hr e
  induction h0 with
  | start => cases hq
  | step log p p' e hr hn ih =>
    have key : p.req.isSome = true → (e ≠ .completed ∧ ¬ IsClosed e ∧ e ≠ .init ∧ ∀ r', e ≠ .ready r') →
        ∃ a1 r a2, log ++ [e] = a1 ++ .ready r :: a2 ∧ ∀ e ∈ a2, e ≠ .completed ∧ ¬ IsClosed e ∧ e ≠ .init ∧ ∀ r', e ≠ .ready r' := by
      intro k1 k2
      obtain ⟨a1, r, a2, k3, k4⟩ := ih k1
      refine ⟨a1, r, a2 ++ [e], by rw [k3]; simp, fun e' he' => ?_⟩
      rcases List.mem_append.1 he' with he' | he'
      · exact k4 e' he'
      · simp at he'; subst he'; exact k2
    cases hn with
    | init p hp => cases hq
    | recv p bs => exact key hq (by simp [IsClosed])
    | interim => cases hq
    | ready i r' _ => exact ⟨log, r', [], rfl, by simp⟩
    | error code => cases hq
    | head r' hd _ => exact key rfl (by simp [IsClosed])
    | body r' hd n bs _ _ _ _ _ => exact key rfl (by simp [IsClosed])
    | chunk r' hd n bs _ _ _ _ => exact key rfl (by simp [IsClosed])
    | lastChunk r' hd n _ _ => exact key rfl (by simp [IsClosed])
    | completed r' hd => unfold Phase.after at hq; split at hq <;> cases hq
    | completedOpen r' hd n _ _ _ => unfold Phase.after at hq; split at hq <;> cases hq
    | forced p u _ _ => cases hq
    | drained => cases hq
    | again _ => cases hq

/-- C15: after `closed` and before the next `initialize` nothing is written, no request is handed out or completed;
the only thing that can still be seen is `closed` again. -/
theorem C15_after_closed (s : Conf) (h : Reach Proper s) (a b : List Ev) (f : Bool) (u : Nat)
    (e : s.c.log = a ++ .closed f u :: b) (hb : .init ∉ b) : ∀ e ∈ b, (∃ bs, e = .recv bs) ∨ e = .closed true 0 := by
  obtain ⟨-, ph, hr⟩ := reach_log h
  rw [e] at hr
  obtain ⟨q, -, h1⟩ := runs_split hr
  cases h1 with
  | cons _ q1 _ _ _ n1 h2 =>
  refine path_events (fun p => p = .closed) (fun e => e = .init) _ ?_ h2 ?_ ?_
  · intro p e q hn hp he
    subst hp
    cases hn <;> simp_all
  · cases n1 <;> rfl
  · exact fun e he hc => hb (hc ▸ he)

/-- C15, `closed` at most once per `initialize`: if `close()` is not called while `requestCompleted` is being handled. -/
theorem C15_closed_once_partial (s : Conf) (h : Reach Gentle s) (a b d : List Ev) (f f' : Bool) (u u' : Nat)
    (e : s.c.log = a ++ .closed f u :: b ++ .closed f' u' :: d) : Ev.init ∈ b := by
  have hr : ∃ ph, Runs false s.c.log ph := by
    rcases inv_reach (lo := false) h with h | ⟨-, -, h⟩
    · obtain ⟨ph, h, -⟩ := h.data; exact ⟨ph, h⟩
    · exact h
  obtain ⟨ph, hr⟩ := hr
  rw [e, List.append_assoc] at hr
  obtain ⟨q, -, h1⟩ := runs_split hr
  rw [List.cons_append] at h1
  cases h1 with
  | cons _ q1 _ _ _ n1 h2 =>
  obtain ⟨q2, h3, h4⟩ := h2.append
  cases h4 with
  | cons _ q3 _ _ _ n2 h5 =>
  apply Classical.byContradiction
  intro hne
  have hI : q2 = .closed := by
    refine path_stays (fun p => p = .closed) (fun e => e = .init) ?_ h3 ?_ ?_
    · intro p e q hn hp he
      subst hp
      cases hn <;> simp_all
    · cases n1 <;> first | rfl | (rename_i h; cases h)
    · exact fun e he hc => hne (hc ▸ he)
  subst hI
  cases n2 <;> simp_all

/-! ### C11 -/

/-- C11: after an error reply nothing more is written and nothing handed out: there is no second reply, no request, no
response; the connection only closes. -/
theorem C11_once (s : Conf) (h : Reach Proper s) (a b : List Ev) (code : Int)
    (e : s.c.log = a ++ .errorReply code :: b) (hb : .init ∉ b) : ∀ e ∈ b, (∃ bs, e = .recv bs) ∨ IsClosed e := by
  obtain ⟨-, ph, hr⟩ := reach_log h
  rw [e] at hr
  obtain ⟨q, -, h1⟩ := runs_split hr
  cases h1 with
  | cons _ q1 _ _ _ n1 h2 =>
  refine path_events (fun p => p = .flushing ∨ p = .closed) (fun e => e = .init) _ ?_ h2 ?_ ?_
  · intro p e q hn hp he
    rcases hp with rfl | rfl <;> cases hn <;> simp_all [IsClosed]
  · cases n1; exact .inl rfl
  · exact fun e he hc => hb (hc ▸ he)

/-- C11: and no request was being handled when the reply was sent: the last request had been answered. -/
theorem C11_not_in_response (s : Conf) (h : Reach Proper s) (a b : List Ev) (r : ReqView) (code : Int)
    (e : s.c.log = a ++ .ready r :: b ++ [.errorReply code]) : .completed ∈ b ∨ ∃ e ∈ b, IsClosed e := by
  obtain ⟨-, ph, hr⟩ := reach_log h
  rw [e, List.append_assoc] at hr
  obtain ⟨q, -, h1⟩ := runs_split hr
  rw [List.cons_append] at h1
  cases h1 with
  | cons _ q1 _ _ _ n1 h2 =>
  obtain ⟨q2, h3, h4⟩ := h2.append
  cases h4 with
  | cons _ q3 _ _ _ n2 h5 =>
  apply Classical.byContradiction
  intro hne
  have hI : q2.req.isSome = true := by
    refine path_stays (fun p => p.req.isSome = true) (fun e => e = .completed ∨ IsClosed e) ?_ h3 ?_ ?_
    · intro p e q hn hp he
      rw [(req_stays hn hp (fun k => he (.inl k)) (fun f u k => he (.inr ⟨f, u, k⟩))).1]; exact hp
    · cases n1; rfl
    · rintro e he (hc | hc)
      · exact hne (.inl (hc ▸ he))
      · exact hne (.inr ⟨e, he, hc⟩)
  cases n2
  cases hI

/-! ### C16 -/

/-- C16, under the condition that `close()` is not called while `requestCompleted` is being handled: no null device is
ever dereferenced. -/
theorem C16_no_null_device_partial (s : Conf) (h : Reach Gentle s) : s.c.fault ≠ some .nullDevice := by
  rcases inv_reach (lo := false) h with h | ⟨h, -⟩
  · rw [h.fault]; simp
  · rw [h]; simp

/-- A request, answered completely: `requestCompleted` is being handled. -/
def toCompletion (version : Bytes) : List Label :=
  [.init, .recv (b!"GET /a " ++ version ++ b!"\r\n\r\n"), .call .processInput] ++ taus 3 ++
  [.call (.writeResponse 200 [⟨b!"X-Y", b!"z"⟩] b!"hello")] ++ taus 7

/-- C16 is false of the code without that condition: when `close()` is called (or the peer disconnects) while
`requestCompleted` is being handled on a connection that is kept alive, the null device is used. -/
theorem C16_violation : ∃ s, Reach Proper s ∧ s.c.fault = some .nullDevice := by
  obtain ⟨t, h1, h2⟩ := exists_of_endsIn (allowed := Proper)
    (ls := toCompletion b!"HTTP/1.1" ++ [.call .close, .tau 0, .ret, .tau 0, .ret] ++ taus 4)
    (p := fun s => s.c.fault == some .nullDevice) (by decide +kernel)
  exact ⟨t, h1, by simpa using h2⟩

/-- C16, exactly when (1): a null device is only dereferenced after `close()` was called (or the peer disconnected) while
`requestCompleted` was being handled **and** the response just completed announced that the connection is kept alive. -/
theorem C16_only_kept_alive (s : Conf) (h : Reach Parting s) : s.c.fault ≠ some .nullDevice := by
  rcases pinv_reach h with h | ⟨h, -⟩ | h
  · rw [h.fault]; simp
  · rw [zombie_fault h]; simp
  · rw [h]; simp

/-- C16, exactly when (2): in that case the crash is inevitable.  Whatever happens next (the handlers return, call anything,
bytes arrive or are written), control does not return to the event loop before the null device has been dereferenced. -/
theorem C16_inevitable (s s' : Conf) (h : Reach Proper s) (hst : s.c.st = .completed) (head : RespHead)
    (hl : LastHead s.c.log head) (hk : head.keepAlive = true) (ls : List Label) (hi : .init ∉ ls)
    (hr : s.run (.call .close :: ls) = some s') : s'.c.fault = some .nullDevice ∨ s'.stack ≠ [] := by
  simp only [Conf.run] at hr
  cases h1 : s.step (.call .close) with
  | none => rw [h1] at hr; cases hr
  | some t =>
    rw [h1] at hr
    obtain ⟨x, hx, hxk⟩ := announced_reach h hst
    rw [hx.unique hl, hk] at hxk
    rcases doomed_run (doomed_close h hst hxk h1) (fun t l hm e => absurd (e ▸ hm) hi) hr with h2 | h2
    · exact .inr (doomed_stack h2)
    · exact .inl h2

/-- The last response head, computed. -/
theorem lastHead_iff (log : List Ev) (h : RespHead) :
    LastHead log h ↔ (log.reverse.findSome? fun | .head x => some x | _ => none) = some h := by
  constructor
  · rintro ⟨a, b, rfl, hb⟩
    rw [List.reverse_append, List.reverse_cons, List.append_assoc, List.findSome?_append, List.findSome?_eq_none_iff.2]
    · rfl
    · intro e he
      have := hb e (List.mem_reverse.1 he)
      cases e <;> first | rfl | exact absurd rfl (this _)
  · intro e
    obtain ⟨l1, x, l2, e1, e2, e3⟩ := List.findSome?_eq_some_iff.1 e
    have hx : x = .head h := by
      cases x <;> simp at e2
      rw [e2]
    refine ⟨l2.reverse, l1.reverse, ?_, fun y hy k hk => ?_⟩
    · have := congrArg List.reverse e1
      simpa [hx] using this
    · have := e3 y (List.mem_reverse.1 hy)
      rw [hk] at this
      simp at this

instance (s : Conf) (l : Label) : Decidable (Parting s l) :=
  decidable_of_iff (Proper s l ∧ (l = .call .close → s.c.st = .completed →
      ∀ h ∈ (s.c.log.reverse.findSome? fun | .head x => some x | _ => none), h.keepAlive = false))
    (by
      unfold Parting
      constructor
      · exact fun ⟨a, b⟩ => ⟨a, fun h1 h2 h hl => b h1 h2 h ((lastHead_iff _ _).1 hl)⟩
      · exact fun ⟨a, b⟩ => ⟨a, fun h1 h2 h hl => b h1 h2 h ((lastHead_iff _ _).2 hl)⟩)

/-- The hypotheses of `C16_only_kept_alive` are met by a run in which `close()` is called while `requestCompleted` is being
handled; everything returns to the event loop. -/
example : ∃ s, Reach Parting s ∧ s.stack = [] ∧ .closed true 96 ∈ s.c.log := by
  obtain ⟨t, h1, h2⟩ := exists_of_endsIn (allowed := Parting)
    (ls := toCompletion b!"HTTP/1.0" ++ [.call .close, .tau 0, .ret, .tau 0, .ret] ++ taus 6 ++ [.ret])
    (p := fun s => s.stack == [] && s.c.log.contains (.closed true 96)) (by decide +kernel)
  simp only [Bool.and_eq_true, beq_iff_eq, List.contains_iff_mem] at h2
  exact ⟨t, h1, h2.1, h2.2⟩

/-- The hypotheses of `C16_inevitable` are met. -/
example : ∃ s head s', Reach Proper s ∧ s.c.st = .completed ∧ LastHead s.c.log head ∧ head.keepAlive = true ∧
    s.run (.call .close :: [.tau 0, .ret, .tau 0, .ret]) = some s' := by
  obtain ⟨t, h1, h2⟩ := exists_of_endsIn (allowed := Proper) (ls := toCompletion b!"HTTP/1.1")
    (p := fun s => s.c.st == .completed && ((s.c.log.reverse.findSome? fun | .head x => some x | _ => none).any (·.keepAlive)) &&
      (s.run (.call .close :: [.tau 0, .ret, .tau 0, .ret])).isSome) (by decide +kernel)
  simp only [Bool.and_eq_true, beq_iff_eq, Option.any_eq_true, Option.isSome_iff_exists] at h2
  obtain ⟨⟨h2, x, h3, h4⟩, s', h5⟩ := h2
  exact ⟨t, x, s', h1, h2, (lastHead_iff _ _).2 h3, h4, h5⟩

/-- C15 is false of the code without that condition: `closed` is emitted twice. -/
theorem C15_violation : ∃ s, Reach Proper s ∧ ∃ a b f f' u u', s.c.log = a ++ .closed f u :: b ++ [.closed f' u'] ∧ .init ∉ b := by
  obtain ⟨t, h1, h2⟩ := exists_of_endsIn (allowed := Proper)
    (ls := toCompletion b!"HTTP/1.0" ++ [.call .close, .tau 0, .ret, .tau 0, .ret] ++ taus 6 ++ [.call .close, .tau 0])
    (p := fun s => s.c.log.drop (s.c.log.length - 2) == [.closed true 96, .closed true 0]) (by decide +kernel)
  refine ⟨t, h1, t.c.log.take (t.c.log.length - 2), [], true, true, 96, 0, ?_, by simp⟩
  conv => lhs; rw [← List.take_append_drop (t.c.log.length - 2) t.c.log, eq_of_beq h2]
  simp

/-- The hypotheses of C15 are met: a run in a gentle environment with two requests on one connection, then a second
connection; both are closed. -/
example : ∃ s, Reach Gentle s ∧ (readys s.c.log).length = 3 ∧ (s.c.log.filter (· = .completed)).length = 2 ∧
    s.c.log.getLast? = some (.closed true 0) := by
  obtain ⟨t, h1, h2⟩ := exists_of_endsIn (allowed := Gentle)
    (ls := toCompletion b!"HTTP/1.1" ++ [.recv b!"GET / HTTP/1.0\r\n\r\n", .ret] ++ taus 1 ++ [.tau 20, .ret] ++ taus 4 ++
      [.call (.writeResponse 404 [] b!"")] ++ taus 4 ++ [.ret] ++ taus 3 ++ [.tau 1000, .ret] ++ taus 2 ++ [.ret] ++ taus 4 ++
      [.ret, .ret, .init, .recv b!"GET / HTTP/1.0\r\n\r\n", .call .processInput] ++ taus 3 ++ [.ret, .call .close] ++ taus 1)
    (p := fun s => (readys s.c.log).length == 3 && (s.c.log.filter (· = .completed)).length == 2 &&
      s.c.log.getLast? == some (.closed true 0)) (by decide +kernel)
  simp only [Bool.and_eq_true, beq_iff_eq] at h2
  exact ⟨t, h1, h2.1.1, h2.1.2, h2.2⟩

/-! ### C17 -/

/-- The states in which a call is meant to have no effect. -/
def WrongState (st : CState) : Call → Prop
  | .processInput => st ≠ .receivingHeaders ∧ st ≠ .receivingContent
  | .writeResponse _ _ _ => st ≠ .sendingHeaders
  | .writeHeaders _ _ => st ≠ .sendingHeaders
  | .writeContent _ => st ≠ .sendingContent
  | .endContent => st ≠ .sendingContent
  | .drain => st ≠ .flushing
  | .close => st = .closed
  | .flush => False

/-- C17: a call in the wrong state, from anywhere, returns after one step to exactly the same configuration: nothing is
written, nothing emitted, no member changed. -/
theorem C17_inert (s : Conf) (he : s.inEnv = true) (hf : s.c.fault = none) (a : Call) (hw : WrongState s.c.st a) (k : Nat) :
    (s.step (.call a)).bind (·.step (.tau k)) = some s := by
  have h1 : s.step (.call a) = some ⟨s.c, a.instr :: s.stack⟩ := by simp [Conf.step, hf, he]
  have h2 : exec k a.instr s.c = (s.c, []) := by
    cases a <;> simp only [WrongState] at hw <;> simp only [Call.instr, exec]
    · unfold Conn.processInput; rw [if_pos hw]
    · unfold Conn.drain; rw [if_pos hw]
    · unfold Conn.toClosed; rw [if_pos hw]
    · unfold Conn.writeResponse; rw [if_pos hw]
    · unfold Conn.writeHeaders; rw [if_pos hw]
    · unfold Conn.writeContent; rw [if_pos hw]
    · unfold Conn.endContent; rw [if_pos hw]
  rw [h1, Option.bind_some]
  have h3 : a.instr ≠ .env := by cases a <;> simp [Call.instr]
  have : ∀ i rest c, i ≠ Instr.env → c.fault = none → exec k i c = (c, []) →
      Conf.step ⟨c, i :: rest⟩ (.tau k) = some ⟨c, rest⟩ := by
    intro i rest c h1 h2 h3
    cases i <;> first | exact absurd rfl h1 | simp [Conf.step, h2, h3]
  rw [this _ _ _ h3 hf h2]

/-- All other calls can have an effect: the states above are the only ones. -/
example : ∃ s, Reach Gentle s ∧ s.inEnv = true ∧ s.c.fault = none ∧ s.c.st = .completed := by
  obtain ⟨t, h1, h2⟩ := exists_of_endsIn (allowed := Gentle) (ls := toCompletion b!"HTTP/1.1")
    (p := fun s => s.inEnv && s.c.fault == none && s.c.st == .completed) (by decide +kernel)
  simp only [Bool.and_eq_true, beq_iff_eq] at h2
  exact ⟨t, h1, h2.1.1, h2.1.2, h2.2⟩

end Pillow.Props
