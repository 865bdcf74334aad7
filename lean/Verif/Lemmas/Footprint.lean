import Verif.Lemmas.Drain
set_option linter.unusedSimpArgs false
set_option linter.unusedVariables false
/-!
# What the instructions leave alone: the request, its parameters and the caches of the decoded accessors
-/
namespace Pillow
open Spec

structure Foot (c c' : Conn) : Prop where
  params : c'.params = c.params
  req : c'.req = c.req
  uriDec : c'.uriDec = c.uriDec
  fragDec : c'.fragDec = c.fragDec
  pathDec : c'.pathDec = c.pathDec
  queryDec : c'.queryDec = c.queryDec
  views : c'.viewsValid = c.viewsValid

theorem Foot.refl (c : Conn) : Foot c c := ⟨rfl, rfl, rfl, rfl, rfl, rfl, rfl⟩
theorem Foot.trans {a b c : Conn} (h : Foot a b) (k : Foot b c) : Foot a c :=
  ⟨k.params.trans h.params, k.req.trans h.req, k.uriDec.trans h.uriDec, k.fragDec.trans h.fragDec, k.pathDec.trans h.pathDec,
   k.queryDec.trans h.queryDec, k.views.trans h.views⟩
theorem foot_write (c : Conn) (e : Ev) : Foot c (c.write e) := by unfold Conn.write; split <;> exact ⟨rfl, rfl, rfl, rfl, rfl, rfl, rfl⟩
theorem foot_readView (c : Conn) : Foot c c.readView := by unfold Conn.readView; split <;> exact ⟨rfl, rfl, rfl, rfl, rfl, rfl, rfl⟩

theorem exec_foot (k : Nat) (i : Instr) (c : Conn) (h1 : i ≠ .sendHeaders) (h2 : i ≠ .completedRest) : Foot c (exec k i c).1 := by
  cases i <;> simp only [exec]
  case env => exact .refl c
  case processInput =>
    unfold Conn.processInput
    split
    · exact .refl c
    · split
      · exact ⟨rfl, rfl, rfl, rfl, rfl, rfl, rfl⟩
      · dsimp only
        repeat' split
        all_goals exact ⟨rfl, rfl, rfl, rfl, rfl, rfl, rfl⟩
  case recvContent =>
    unfold Conn.recvContent
    split
    · exact .refl c
    · dsimp only
      split
      · exact ⟨rfl, rfl, rfl, rfl, rfl, rfl, rfl⟩
      · split
        · exact ⟨rfl, rfl, rfl, rfl, rfl, rfl, rfl⟩
        · split
          · split
            · refine Foot.trans ?_ (Foot.trans (foot_write _ .interim) ⟨rfl, rfl, rfl, rfl, rfl, rfl, rfl⟩)
              exact ⟨rfl, rfl, rfl, rfl, rfl, rfl, rfl⟩
            · exact ⟨rfl, rfl, rfl, rfl, rfl, rfl, rfl⟩
          · exact ⟨rfl, rfl, rfl, rfl, rfl, rfl, rfl⟩
  case sendHeaders => exact absurd rfl h1
  case completedRest => exact absurd rfl h2
  case sendContent =>
    unfold Conn.sendContent
    split
    · exact .refl c
    · dsimp only
      split
      · exact ⟨rfl, rfl, rfl, rfl, rfl, rfl, rfl⟩
      · have : Foot c ({ c with st := .sendingContent, respBuf := [] } : Conn).readView := 
          Foot.trans (b := { c with st := .sendingContent, respBuf := [] }) ⟨rfl, rfl, rfl, rfl, rfl, rfl, rfl⟩ (foot_readView _)
        split <;> exact this
  case sendContentRest =>
    unfold Conn.sendContentRest
    dsimp only
    split <;> exact ⟨rfl, rfl, rfl, rfl, rfl, rfl, rfl⟩
  case completed => unfold Conn.complete; split <;> exact ⟨rfl, rfl, rfl, rfl, rfl, rfl, rfl⟩
  case completedRest2 =>
    unfold Conn.completedRest2 Conn.toReceivingHeaders
    dsimp only
    split <;> exact ⟨rfl, rfl, rfl, rfl, rfl, rfl, rfl⟩
  case flush => unfold Conn.flush; split; exact .refl c; split <;> exact ⟨rfl, rfl, rfl, rfl, rfl, rfl, rfl⟩
  case drain => unfold Conn.drain; split <;> exact .refl c
  case drainRest => unfold Conn.drainRest; split; exact .refl c; split <;> exact .refl c
  case flushing => unfold Conn.toFlushing; split <;> exact ⟨rfl, rfl, rfl, rfl, rfl, rfl, rfl⟩
  case flushingRest => unfold Conn.flushingRest; split; split <;> exact ⟨rfl, rfl, rfl, rfl, rfl, rfl, rfl⟩; exact .refl c
  case closed f => unfold Conn.toClosed; split <;> exact ⟨rfl, rfl, rfl, rfl, rfl, rfl, rfl⟩
  case closedRest => exact ⟨rfl, rfl, rfl, rfl, rfl, rfl, rfl⟩
  case errorResponse code => unfold Conn.errorResponse; split; exact .refl c; exact foot_write c _
  case writeResponse st hs ct => unfold Conn.writeResponse; split <;> exact ⟨rfl, rfl, rfl, rfl, rfl, rfl, rfl⟩
  case writeResponseRest ct =>
    unfold Conn.writeResponseRest
    split
    · exact .refl c
    · dsimp only
      split <;> exact foot_readView c
  case writeHeaders st hs =>
    unfold Conn.writeHeaders
    split
    · exact .refl c
    · dsimp only
      split
      · exact (foot_readView c).trans ⟨rfl, rfl, rfl, rfl, rfl, rfl, rfl⟩
      · refine (foot_readView c).trans (Foot.trans (b := { c.readView with status := st, respBuf := _, respLen := _, chunked := _, keepAlive := _ }) ?_ (foot_write _ _))
        exact ⟨rfl, rfl, rfl, rfl, rfl, rfl, rfl⟩
  case writeContent ct =>
    unfold Conn.writeContent
    split
    · exact .refl c
    · split
      · exact .refl c
      · split
        · exact .refl c
        · split
          · dsimp only
            split
            · exact foot_readView c
            · have : ∀ e, Foot c ({ c.readView with sent := c.readView.sent + ct.length }.write e) :=
                fun e => (foot_readView c).trans (Foot.trans (b := { c.readView with sent := c.readView.sent + ct.length }) ⟨rfl, rfl, rfl, rfl, rfl, rfl, rfl⟩ (foot_write _ _))
              repeat' split
              all_goals exact this _
          · exact .refl c
  case endContent =>
    unfold Conn.endContent
    split
    · exact .refl c
    · split
      · exact .refl c
      · dsimp only
        split
        · exact foot_write c _
        · exact ⟨rfl, rfl, rfl, rfl, rfl, rfl, rfl⟩

/-- The state after an instruction: the transitions. -/
theorem exec_st (k : Nat) (i : Instr) (c : Conn) : (exec k i c).1.st = c.st ∨
    (i = .recvContent ∧ (exec k i c).1.st = .receivingContent) ∨ (i = .sendHeaders ∧ (exec k i c).1.st = .sendingHeaders) ∨
    (i = .sendContent ∧ (exec k i c).1.st = .sendingContent) ∨ (i = .completed ∧ (exec k i c).1.st = .completed) ∨
    (i = .completedRest2 ∧ (exec k i c).1.st = .receivingHeaders) ∨ (i = .flushing ∧ (exec k i c).1.st = .flushing) ∨
    ((∃ f, i = .closed f) ∧ (exec k i c).1.st = .closed) := by
  cases i <;> dsimp only [exec]
  case processInput =>
    left
    unfold Conn.processInput
    split
    · rfl
    · split
      · rfl
      · dsimp only
        repeat' split
        all_goals rfl
  case recvContent =>
    unfold Conn.recvContent
    split
    · left; rfl
    · right; left
      refine ⟨rfl, ?_⟩
      dsimp only
      split
      · rfl
      · split
        · rfl
        · split
          · split
            · simp [st_write, Conn.setup]
            · rfl
          · rfl
  case sendHeaders =>
    unfold Conn.sendHeaders
    split
    · left; rfl
    · right; right; left
      refine ⟨rfl, ?_⟩
      simp only [Conn.emit, Conn.setup]
      split <;> rfl
  case sendContent =>
    unfold Conn.sendContent
    split
    · left; rfl
    · right; right; right; left
      refine ⟨rfl, ?_⟩
      dsimp only
      split
      · rfl
      · split <;> simp [st_readView]
  case sendContentRest => left; unfold Conn.sendContentRest; dsimp only; split <;> rfl
  case completed => unfold Conn.complete; split; left; rfl; right; right; right; right; left; exact ⟨rfl, rfl⟩
  case completedRest => left; unfold Conn.completedRest; dsimp only; split <;> rfl
  case completedRest2 =>
    unfold Conn.completedRest2 Conn.toReceivingHeaders
    dsimp only
    split
    · left; rfl
    · right; right; right; right; right; left; exact ⟨rfl, rfl⟩
  case flush => left; unfold Conn.flush; split; rfl; split <;> rfl
  case drain => left; unfold Conn.drain; split <;> rfl
  case drainRest => left; unfold Conn.drainRest; split; rfl; split <;> rfl
  case flushing =>
    unfold Conn.toFlushing
    split
    · left; rfl
    · right; right; right; right; right; right; left; exact ⟨rfl, rfl⟩
  case flushingRest => left; unfold Conn.flushingRest; split; split <;> rfl; rfl
  case closed f =>
    unfold Conn.toClosed
    split
    · left; rfl
    · right; right; right; right; right; right; right; exact ⟨⟨f, rfl⟩, rfl⟩
  case closedRest => left; rfl
  case env => left; rfl
  case errorResponse code => left; unfold Conn.errorResponse; split; rfl; exact st_write _ _
  case writeResponse st hs ct => left; unfold Conn.writeResponse; split <;> rfl
  case writeResponseRest ct =>
    left
    unfold Conn.writeResponseRest
    split
    · rfl
    · dsimp only
      split <;> exact st_readView c
  case writeHeaders st hs =>
    left
    unfold Conn.writeHeaders
    split
    · rfl
    · dsimp only
      split
      · exact st_readView c
      · exact (st_write _ _).trans (st_readView c)
  case writeContent ct =>
    left
    unfold Conn.writeContent
    split
    · rfl
    · split
      · rfl
      · split
        · rfl
        · split
          · dsimp only
            split
            · exact st_readView c
            · have : ∀ e, ({ c.readView with sent := c.readView.sent + ct.length }.write e).st = c.st :=
                fun e => (st_write _ _).trans (st_readView c)
              repeat' split
              all_goals exact this _
          · rfl
  case endContent =>
    left
    unfold Conn.endContent
    split
    · rfl
    · split
      · rfl
      · dsimp only
        split
        · exact st_write c _
        · rfl

end Pillow
