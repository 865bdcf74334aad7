import Verif.Props.Reuse
/-!
# C93: `initialize()` starts afresh, whatever the connection was doing
-/
namespace Pillow.Props
open Pillow Pillow.Spec

/-- **C93** (partial: not if the connection was waiting for (the rest of) a request head, see `C93_waiting`, and not in slots, see `C93_in_completed`, `C93_in_closed`).  Take any connection object that has been used
in any way and is doing anything but that - nothing yet, receiving content, being handled, sending, flushing, closed -, with control in the event loop, and let the same happen to it and to a newly constructed
one: `initialize`, then any bytes, calls and answers of the device.  Then either both can do it or neither, and afterwards the used object is to the new device exactly what the new one is. -/
theorem C93_as_new_partial (s : Conf) (h : Reach (fun _ _ => True) s) (hst : s.stack = []) (hc : s.c.st ≠ .receivingHeaders) (hf : s.c.fault = none)
    (ls : List Label) (hi : .init ∉ ls) (ha : ∀ t, ({} : Conf).step .init = some t → AsksInTime t ls) :
    (s.run (.init :: ls) = none ∧ ({} : Conf).run (.init :: ls) = none) ∨
    ∃ s' t, s.run (.init :: ls) = some s' ∧ ({} : Conf).run (.init :: ls) = some t ∧ AsNew s.c.log s' t := by
  have e1 := step_init hst hf
  have e2 : ({} : Conf).step .init = some ⟨({} : Conn).initialize, []⟩ := step_init rfl rfl
  simp only [Conf.run, e1, e2, Option.bind_some]
  rcases related_run s.c.log s.c.staleRead s.c ls ⟨s.c.initialize, []⟩ ⟨({} : Conn).initialize, []⟩ rfl (related_init s (headGone_reach h) hf hst hc) hi (ha _ e2) with
    ⟨h1, h2⟩ | ⟨s', t, h1, h2, h3, h4⟩
  · exact .inl ⟨h1, h2⟩
  · exact .inr ⟨s', t, h2, h1, related_asNew _ _ _ h3 h4⟩

/-- **C93 is false of the code** while the connection waits for a request head (as every connection that is kept alive does between requests), because the parser is zeroed and not initialized then: whatever the
new device sends first, and be it a whole request, is read and nothing happens: nothing is handed out and nothing is answered, and the connection waits. -/
theorem C93_waiting (s : Conf) (hst : s.stack = []) (hc : s.c.st = .receivingHeaders) (hf : s.c.fault = none) (bs : Bytes) (hb : bs ≠ []) (k : Nat) :
    ∃ s', s.run [.init, .recv bs, .call .processInput, .tau k] = some s' ∧ s'.c.log = s.c.log ++ [.init, .recv bs] ∧ s'.stack = [] ∧ s'.c.st = .receivingHeaders ∧
      s'.c.buf = bs ∧ s'.c.parser.nread = 0 ∧ s'.c.dev = some {} := by
  simp only [Conf.run, step_init hst hf, Option.bind_some]
  obtain ⟨c, stack⟩ := s
  obtain ⟨⟩ := c
  dsimp only at hst hc hf
  subst hst hc hf
  simp [Conf.step, Conf.inEnv, Conn.initialize, Conn.toReceivingHeaders, Conn.emit, Call.instr, exec, Conn.processInput, Conn.fill, Conn.parse, Parser.execute, hasCase, hb, Parser.hasError, Parser.isFinished]

def plainGet : Bytes := b!"GET / HTTP/1.1\r\n\r\n"

/-- A request is sent and answered, and the connection is kept. -/
def keptAlive : List Label :=
  [.init, .recv plainGet, .call .processInput] ++ taus 3 ++ [.call (.writeResponse 204 [] [])] ++ taus 4 ++ [.ret] ++ taus 2 ++ [.ret] ++ taus 4 ++ [.ret]

/-- A request arrives in one piece. -/
def oneRequest : List Label := [.init, .recv plainGet, .call .processInput] ++ taus 1

/-- C93 is false of the code: a connection that has served a request, and is waiting for the next, is initialized with another device, from which a request arrives.  It is not handed out before something else
arrives; a new object hands it out at once. -/
theorem C93_violation : ∃ s s' s'' t, Reach Gentle s ∧ s.stack = [] ∧ s.c.fault = none ∧ s.c.st = .receivingHeaders ∧
    s.run oneRequest = some s' ∧ s'.c.log = s.c.log ++ [.init, .recv plainGet] ∧ s'.stack = [] ∧
    s'.run ([.recv b!"G", .call .processInput] ++ taus 3) = some s'' ∧ (readys (epoch s''.c.log)).map (·.method) = [b!"GET"] ∧
    ({} : Conf).run (oneRequest ++ taus 2) = some t ∧ (readys t.c.log).map (·.method) = [b!"GET"] := by
  obtain ⟨s, h1, h2⟩ := exists_of_endsIn (allowed := Gentle) (ls := keptAlive)
    (p := fun s => decide (s.stack = [] ∧ s.c.fault = none ∧ s.c.st = .receivingHeaders) &&
      (match s.run oneRequest, ({} : Conf).run (oneRequest ++ taus 2) with
       | some s', some t => decide (s'.c.log = s.c.log ++ [.init, .recv plainGet] ∧ s'.stack = [] ∧ (readys t.c.log).map (·.method) = [b!"GET"]) &&
         (match s'.run ([.recv b!"G", .call .processInput] ++ taus 3) with
          | some s'' => decide ((readys (epoch s''.c.log)).map (·.method) = [b!"GET"])
          | none => false)
       | _, _ => false)) (by decide +kernel)
  simp only [Bool.and_eq_true, decide_eq_true_eq] at h2
  obtain ⟨⟨a1, a2, a3⟩, h2⟩ := h2
  split at h2
  · rename_i s' t e1 e2
    simp only [Bool.and_eq_true, decide_eq_true_eq] at h2
    obtain ⟨⟨b1, b2, b3⟩, h3⟩ := h2
    split at h3
    · rename_i s'' e3
      exact ⟨s, s', s'', t, h1, a1, a2, a3, e1, b1, b2, e3, of_decide_eq_true h3, e2, b3⟩
    · cases h3
  · cases h2

/-- The hypotheses of `C93_as_new_partial` are met by a connection that has a response to send, is in the middle of sending it, or waits for it to leave. -/
theorem C93_example :
    (∃ s, Reach (fun _ _ => True) s ∧ s.stack = [] ∧ s.c.fault = none ∧ s.c.st = .sendingHeaders) ∧
    (∃ s, Reach (fun _ _ => True) s ∧ s.stack = [] ∧ s.c.fault = none ∧ s.c.st = .sendingContent) ∧
    ∃ s, Reach (fun _ _ => True) s ∧ s.stack = [] ∧ s.c.fault = none ∧ s.c.st = .flushing := by
  refine ⟨?_, ?_, ?_⟩
  · obtain ⟨s, h1, h2⟩ := exists_of_endsIn (allowed := fun _ _ => True) (ls := [.init, .recv plainGet, .call .processInput] ++ taus 3 ++ [.ret])
      (p := fun s => decide (s.stack = [] ∧ s.c.fault = none ∧ s.c.st = .sendingHeaders)) (by decide +kernel)
    exact ⟨s, h1, of_decide_eq_true h2⟩
  · obtain ⟨s, h1, h2⟩ := exists_of_endsIn (allowed := fun _ _ => True) (ls := [.init, .recv plainGet, .call .processInput] ++ taus 3 ++ [.call (.writeHeaders 200 [⟨b!"Content-Length", b!"5"⟩])] ++ taus 3 ++ [.ret])
      (p := fun s => decide (s.stack = [] ∧ s.c.fault = none ∧ s.c.st = .sendingContent)) (by decide +kernel)
    exact ⟨s, h1, of_decide_eq_true h2⟩
  · obtain ⟨s, h1, h2⟩ := exists_of_endsIn (allowed := fun _ _ => True) (ls := [.init, .recv b!"?\r\n", .call .processInput] ++ taus 5 ++ [.ret] ++ taus 2)
      (p := fun s => decide (s.stack = [] ∧ s.c.fault = none ∧ s.c.st = .flushing)) (by decide +kernel)
    exact ⟨s, h1, of_decide_eq_true h2⟩

/-- In slots: `initialize` in a slot of `requestCompleted`, after a response that is not followed by others on its connection: the new device is closed when the slot returns. -/
theorem C93_in_completed (s : Conf) (rest : List Instr) (hst : s.stack = .env :: .completedRest :: rest) (hk : s.c.keepAlive = false) (hc : s.c.st = .completed) (hf : s.c.fault = none) :
    ∃ s', s.run ([.init, .ret] ++ taus 6) = some s' ∧ s'.c.log = s.c.log ++ [.init, .closed false 0] := by
  obtain ⟨c, stack⟩ := s
  obtain ⟨⟩ := c
  dsimp only at hst hc hf hk
  subst hst hc hf hk
  simp [Conf.run, taus, List.replicate, Conf.step, Conf.inEnv, Conn.initialize, Conn.toReceivingHeaders, Conn.emit, exec, Conn.completedRest, Conn.toFlushing, Conn.drain, Conn.flush, Conn.drainRest, Conn.toClosed, Parser.init]

/-- In slots: `initialize` in a slot of `closed` (where a connection is free again, and the server puts it back into its pool): the new device is forgotten when the slot returns. -/
theorem C93_in_closed (s : Conf) (rest : List Instr) (hst : s.stack = .env :: .closedRest :: rest) (hf : s.c.fault = none) (k : Nat) :
    ∃ s', s.run [.init, .ret, .tau k] = some s' ∧ s'.c.log = s.c.log ++ [.init] ∧ s'.c.dev = none ∧ s'.c.st = .receivingHeaders ∧ s'.stack = rest := by
  obtain ⟨c, stack⟩ := s
  obtain ⟨⟩ := c
  dsimp only at hst hf
  subst hst hf
  simp [Conf.run, Conf.step, Conf.inEnv, Conn.initialize, Conn.toReceivingHeaders, Conn.emit, exec, Conn.closedRest]
  split <;> simp_all

/-- Requests answered in such a way that the last slot is that of `requestCompleted`, or of `closed`. -/
theorem C93_slots_example :
    (∃ s rest, Reach Gentle s ∧ s.stack = .env :: .completedRest :: rest ∧ s.c.keepAlive = false ∧ s.c.st = .completed ∧ s.c.fault = none) ∧
    ∃ s rest, Reach Gentle s ∧ s.stack = .env :: .closedRest :: rest ∧ s.c.fault = none := by
  have top : ∀ (i : Instr) (st : List Instr), (match st with | .env :: j :: _ => decide (j = i) | _ => false) = true → ∃ rest, st = .env :: i :: rest := by
    intro i st h
    split at h
    · rename_i j rest
      exact ⟨rest, by rw [of_decide_eq_true h]⟩
    · cases h
  refine ⟨?_, ?_⟩
  · obtain ⟨s, h1, h2⟩ := exists_of_endsIn (allowed := Gentle) (ls := [.init, .recv b!"GET / HTTP/1.0\r\n\r\n", .call .processInput] ++ taus 3 ++ [.call (.writeResponse 204 [] [])] ++ taus 4)
      (p := fun s => (match s.stack with | .env :: j :: _ => decide (j = .completedRest) | _ => false) && decide (s.c.keepAlive = false ∧ s.c.st = .completed ∧ s.c.fault = none)) (by decide +kernel)
    rw [Bool.and_eq_true] at h2
    obtain ⟨rest, e⟩ := top _ _ h2.1
    exact ⟨s, rest, h1, e, of_decide_eq_true h2.2⟩
  · obtain ⟨s, h1, h2⟩ := exists_of_endsIn (allowed := Gentle) (ls := [.init, .call .close] ++ taus 1)
      (p := fun s => (match s.stack with | .env :: j :: _ => decide (j = .closedRest) | _ => false) && decide (s.c.fault = none)) (by decide +kernel)
    rw [Bool.and_eq_true] at h2
    obtain ⟨rest, e⟩ := top _ _ h2.1
    exact ⟨s, rest, h1, e, of_decide_eq_true h2.2⟩

end Pillow.Props
