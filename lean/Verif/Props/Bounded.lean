import Verif.Props.Requests
import Verif.Spec.Bounded
/-!
# C83: what a connection holds of its client's input is bounded, and it reads nothing while a request is being handled
-/
namespace Pillow.Props
open Pillow Pillow.Spec

/-- **C83.** When a connection expects input, the bytes it has taken from its device and not yet handed out are the beginning of one request that can still become acceptable. -/
theorem C83_held (s : Conf) (h : Reach Proper s) (hw : ExpectsInput s) : ∃ reqs held, Requests (received (epoch s.c.log)) reqs (held ++ unread s.c) ∧
    readys (epoch s.c.log) = shownAll reqs ∧ PartOfRequest held := by
  have hc := reach_core h (by rw [inEnv_iff]; exact .inl hw.idle) hw.alive
    (by rcases hw.state with e | e <;> rw [e] <;> simp) (by rcases hw.state with e | e <;> rw [e] <;> simp)
  obtain ⟨ph, -, hd⟩ := hc.data
  rw [hw.idle] at hd
  have hd : Settled true s.c ph := hd
  rcases hw.state with e | e
  · obtain ⟨-, reqs, s0, n, h1, h2, h3, -, -, -, h4⟩ := (settled_recvH e).1 hd
    obtain ⟨rfl, hlen⟩ := h4 rfl
    rw [List.take_length] at h3
    exact ⟨reqs, s.c.buf, h1.stream, h1.ready, .head _ hlen fun x hx => live_no_head s0 _ h3 x hx⟩
  · obtain ⟨reqs, hd, tail, n, h1, h2, h3⟩ := (settled_recvC e).1 hd
    exact ⟨reqs, hd.render ++ tail, h1.head.hist.stream, h1.head.hist.ready, .content hd n tail ⟨h1.head.wf, h1.head.short, h1.announced, h1.small⟩ (h3 rfl)⟩

theorem part_bound {held : Bytes} (h : PartOfRequest held) : (held.length : Int) < headLimit + contentLimit := by
  cases h with
  | head h1 _ => unfold headLimit at *; unfold contentLimit; omega
  | content h n part ha hp =>
    have h1 := ha.short
    have h2 := ha.small
    rw [List.length_append]
    omega

/-- **C83.** So it holds less than the largest request that is accepted. -/
theorem C83_bounded (s : Conf) (h : Reach Proper s) (hw : ExpectsInput s) : ∃ reqs held, Requests (received (epoch s.c.log)) reqs (held ++ unread s.c) ∧
    readys (epoch s.c.log) = shownAll reqs ∧ (held.length : Int) < headLimit + contentLimit := by
  obtain ⟨reqs, held, h1, h2, h3⟩ := C83_held s h hw
  exact ⟨reqs, held, h1, h2, part_bound h3⟩

/-- Which bytes are held is determined by what arrived and what is still unread. -/
theorem C83_unique {stream inp held held' : Bytes} {reqs reqs' : List (ReqHead × Bytes)} (h : Requests stream reqs (held ++ inp)) (h' : Requests stream reqs' (held' ++ inp))
    (he : shownAll reqs = shownAll reqs') (hc : ¬ Complete (held ++ inp)) (hc' : ¬ Complete (held' ++ inp)) : held = held' := by
  rcases Requests.unique h h' with ⟨-, e⟩ | ⟨-, -, e⟩ | ⟨-, -, e⟩
  · exact List.append_cancel_right e
  · exact absurd e hc
  · exact absurd e hc'

theorem unread_write (c : Conn) (e : Ev) : unread (c.write e) = unread c := by
  unfold Conn.write
  cases hd : c.dev with
  | none => simp [unread, hd]
  | some d => simp [unread, hd]

theorem unread_dev {c c' : Conn} (h : c'.dev = c.dev) : unread c' = unread c := by unfold unread; rw [h]

theorem unread_out {c c' : Conn} (h : c'.dev = c.dev) : c'.dev = none ∨ unread c' = unread c := Or.inr (unread_dev h)

theorem readView_dev (c : Conn) : c.readView.dev = c.dev := by unfold Conn.readView; split <;> rfl

/-- Only `processInput` reads. -/
theorem exec_unread (k : Nat) (i : Instr) (c : Conn) (hi : i ≠ .processInput) : (exec k i c).1.dev = none ∨ unread (exec k i c).1 = unread c := by
  cases i with
  | env => exact Or.inr rfl
  | processInput => exact absurd rfl hi
  | recvContent =>
    refine Or.inr ?_
    show unread c.recvContent.1 = _
    unfold Conn.recvContent
    split
    · rfl
    dsimp only
    split
    · exact unread_dev rfl
    split
    · exact unread_dev rfl
    split
    · split
      · refine (unread_dev (c := (Conn.write _ .interim)) rfl).trans ?_
        rw [unread_write]
        exact unread_dev rfl
      · exact unread_dev rfl
    · exact unread_dev rfl
  | sendHeaders =>
    show c.sendHeaders.1.dev = none ∨ unread c.sendHeaders.1 = _
    unfold Conn.sendHeaders
    split
    · exact Or.inr rfl
    · refine unread_out ?_
      dsimp only [Conn.emit]
      split <;> rfl
  | sendContent =>
    show c.sendContent.1.dev = none ∨ unread c.sendContent.1 = _
    unfold Conn.sendContent
    split
    · exact Or.inr rfl
    dsimp only
    split
    · exact unread_out rfl
    split <;> exact unread_out (readView_dev _)
  | sendContentRest =>
    show c.sendContentRest.1.dev = none ∨ unread c.sendContentRest.1 = _
    unfold Conn.sendContentRest
    dsimp only
    split <;> exact unread_out rfl
  | completed =>
    show c.complete.1.dev = none ∨ unread c.complete.1 = _
    unfold Conn.complete
    split <;> exact unread_out rfl
  | completedRest =>
    show c.completedRest.1.dev = none ∨ unread c.completedRest.1 = _
    unfold Conn.completedRest
    dsimp only
    split <;> exact unread_out rfl
  | completedRest2 =>
    show c.toReceivingHeaders.dev = none ∨ unread c.toReceivingHeaders = _
    unfold Conn.toReceivingHeaders
    split <;> exact unread_out rfl
  | flush =>
    show (c.flush k).1.dev = none ∨ unread (c.flush k).1 = _
    unfold Conn.flush
    split
    · exact Or.inr rfl
    · rename_i d hd
      split
      · exact Or.inr (by simp [unread, hd])
      · exact Or.inr rfl
  | drain =>
    show c.drain.1.dev = none ∨ unread c.drain.1 = _
    unfold Conn.drain
    split <;> exact Or.inr rfl
  | drainRest =>
    show c.drainRest.1.dev = none ∨ unread c.drainRest.1 = _
    unfold Conn.drainRest
    split
    · exact Or.inr rfl
    · split <;> exact Or.inr rfl
  | flushing =>
    show c.toFlushing.1.dev = none ∨ unread c.toFlushing.1 = _
    unfold Conn.toFlushing
    split <;> exact unread_out rfl
  | flushingRest =>
    show c.flushingRest.1.dev = none ∨ unread c.flushingRest.1 = _
    unfold Conn.flushingRest
    split
    · split
      · exact Or.inr rfl
      · rename_i d hd
        exact Or.inr (by simp [unread, hd])
    · exact Or.inr rfl
  | closed forced =>
    show (c.toClosed forced).1.dev = none ∨ unread (c.toClosed forced).1 = _
    unfold Conn.toClosed
    split <;> exact unread_out rfl
  | closedRest => exact Or.inl rfl
  | errorResponse code =>
    show (c.errorResponse code).1.dev = none ∨ unread (c.errorResponse code).1 = _
    unfold Conn.errorResponse
    split
    · exact Or.inr rfl
    · exact Or.inr (unread_write _ _)
  | writeResponse st hs ct =>
    show (c.writeResponse st hs ct).1.dev = none ∨ unread (c.writeResponse st hs ct).1 = _
    unfold Conn.writeResponse
    split <;> exact unread_out rfl
  | writeResponseRest ct =>
    show (c.writeResponseRest ct).1.dev = none ∨ unread (c.writeResponseRest ct).1 = _
    unfold Conn.writeResponseRest
    split
    · exact Or.inr rfl
    dsimp only
    split <;> exact unread_out (readView_dev _)
  | writeHeaders st hs =>
    show (c.writeHeaders st hs).1.dev = none ∨ unread (c.writeHeaders st hs).1 = _
    unfold Conn.writeHeaders
    split
    · exact Or.inr rfl
    dsimp only
    split
    · exact unread_out (by dsimp only; exact readView_dev _)
    · refine Or.inr ?_
      rw [unread_write]
      exact unread_dev (by dsimp only; exact readView_dev _)
  | writeContent ct =>
    show (c.writeContent ct).1.dev = none ∨ unread (c.writeContent ct).1 = _
    refine Or.inr ?_
    unfold Conn.writeContent
    split
    · rfl
    split
    · rfl
    split
    · rfl
    split
    · dsimp only
      split
      · exact unread_dev (readView_dev _)
      generalize (if c.readView.chunked = true then Ev.chunk ct else Ev.body ct) = e
      split
      all_goals
        refine (unread_write _ _).trans ?_
        exact unread_dev (by dsimp only; exact readView_dev _)
    · rfl
  | endContent =>
    show c.endContent.1.dev = none ∨ unread c.endContent.1 = _
    refine Or.inr ?_
    unfold Conn.endContent
    split
    · rfl
    split
    · rfl
    dsimp only
    split
    · exact unread_write _ _
    · rfl

theorem params_dev (c : Conn) : c.requestParams.dev = c.dev := by unfold Conn.requestParams; split <;> rfl

/-- **C83.** As long as the connection does not expect input, it takes nothing from its device: whatever happens, what was unread stays unread, in front of what arrives (unless the
connection lets go of the device, or is given another one). -/
theorem C83_paused (s s' : Conf) (l : Label) (h : s.c.st ≠ .receivingHeaders ∧ s.c.st ≠ .receivingContent) (hl : l ≠ .init) (hs : s.step l = some s') :
    s'.c.dev = none ∨ unread s'.c = unread s.c ++ Label.arriving l := by
  unfold Conf.step at hs
  split at hs
  · cases hs
  cases l with
  | tau k =>
    show _ ∨ _ = _ ++ []
    rw [List.append_nil]
    dsimp only at hs
    split at hs
    · cases hs
    · cases hs
    · rename_i i rest _ _
      cases hs
      by_cases hi : i = .processInput
      · subst hi
        refine Or.inr ?_
        show unread s.c.processInput.1 = _
        unfold Conn.processInput
        rw [if_pos h]
      · exact exec_unread k i s.c hi
  | call a =>
    dsimp only at hs
    split at hs
    · cases hs; exact Or.inr (by simp [Label.arriving])
    · cases hs
  | ret =>
    dsimp only at hs
    split at hs
    · cases hs; exact Or.inr (by simp [Label.arriving])
    · cases hs
  | recv bs =>
    dsimp only at hs
    split at hs
    · split at hs
      · rename_i d hd
        cases hs
        exact Or.inr (by simp [unread, Label.arriving, Conn.emit, hd])
      · cases hs
    · cases hs
  | bytesWritten k =>
    dsimp only at hs
    split at hs
    · split at hs
      · rename_i d hd
        cases hs
        exact Or.inr (by simp [unread, Label.arriving, hd])
      · cases hs
    · cases hs
  | init => exact absurd rfl hl
  | readParams =>
    dsimp only at hs
    split at hs
    · cases hs
      refine Or.inr ?_
      simp only [Label.arriving, List.append_nil]
      exact unread_dev (params_dev _)
    · cases hs
  | setParam n v =>
    dsimp only at hs
    split at hs
    · cases hs
      refine Or.inr ?_
      simp only [Label.arriving, List.append_nil]
      exact unread_dev (by unfold Conn.setRequestParam; exact params_dev _)
    · cases hs
  | readDecoded d =>
    dsimp only at hs
    split at hs
    · cases hs
      refine Or.inr ?_
      simp only [Label.arriving, List.append_nil]
      refine unread_dev ?_
      unfold Conn.readDecoded
      cases d <;> dsimp only <;> split <;> rfl
    · cases hs

/-! ### The hypotheses are met -/

/-- A connection that expects the rest of a content, and has not read all that arrived. -/
example : ∃ s, Reach Proper s ∧ ExpectsInput s ∧ s.c.st = .receivingContent ∧ unread s.c = b!"b" := by
  obtain ⟨t, h1, h2⟩ := exists_of_endsIn (allowed := Proper)
    (ls := [.init, .recv b!"PUT /a HTTP/1.1\r\nContent-Length: 3\r\n\r\na", .call .processInput] ++ taus 3 ++ [.recv b!"b"])
    (p := fun s => s.stack == [] && s.c.fault == none && unread s.c == b!"b" && s.c.st == .receivingContent)
    (by decide +kernel)
  simp only [Bool.and_eq_true, beq_iff_eq] at h2
  exact ⟨t, h1, ⟨h2.1.1.1, h2.1.1.2, .inr h2.2⟩, h2.2, h2.1.2⟩

/-- A connection that expects nothing because a request is being handled, while more arrives. -/
example : ∃ s, Reach Proper s ∧ s.c.st = .sendingHeaders ∧ unread s.c = b!"GET /c" := by
  obtain ⟨t, h1, h2⟩ := exists_of_endsIn (allowed := Proper)
    (ls := [.init, .recv b!"POST /a HTTP/1.1\r\nContent-Length: 2\r\n\r\nhiGET /b HTTP", .call .processInput] ++ taus 4 ++ [.recv b!"GET /c"])
    (p := fun s => s.c.st == .sendingHeaders && unread s.c == b!"GET /c") (by decide +kernel)
  simp only [Bool.and_eq_true, beq_iff_eq] at h2
  exact ⟨t, h1, h2⟩

end Pillow.Props
