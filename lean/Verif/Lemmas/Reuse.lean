import Verif.Spec.Reuse
import Verif.Lemmas.Footprint
set_option linter.unusedSimpArgs false
set_option linter.unusedVariables false
/-!
# What a connection object keeps of its previous client
-/
namespace Pillow
open Spec

/-! ### after the first request nothing is left but the history, the last status and whether views were misused -/

/-- `d` with another history before it. -/
def lift (pre : List Ev) (x : Bool) (st : Int) (d : Conn) : Conn := { d with log := pre ++ d.log, staleRead := x || d.staleRead, status := st }

theorem ite_out {α β : Type} (f : α → β) {p q : Prop} [Decidable p] [Decidable q] {a b : β} {a' b' : α} (hpq : p ↔ q) (h1 : a = f a') (h2 : b = f b') :
    (if p then a else b) = f (if q then a' else b') := by
  by_cases h : q
  · rw [if_pos h, if_pos (hpq.2 h), h1]
  · rw [if_neg h, if_neg (fun k => h (hpq.1 k)), h2]

/-- `recvContent` once the length is known. -/
def recvTail (f : Conn) (a : Int × Bool) : Out :=
  if a.1 < 0 then (f, [.errorResponse 400])
  else if a.1 > maxContentLength ∨ a.2 = false then (f, [.errorResponse 413])
  else if a.1 > 0 then
    let c := if asciiEqualsCILower (getFieldValueTok (viewHeaders f.buf f.refs) b!"expect") b!"100-continue" then f.write .interim else f
    ({ c with hdrN := c.hdrN - 1, hdrValid := false }, [.processInput])
  else (f, [.sendHeaders])

/-- `writeContent` once the number of bytes is counted. -/
def contentTail (content : Bytes) (c : Conn) : Out :=
  let c := c.write (if c.chunked then .chunk content else .body content)
  if (c.sent : Int) = c.respLen then (c, [.completed]) else (c, [])

theorem writeContent_eq (content : Bytes) (c : Conn) : c.writeContent content =
    if c.st ≠ .sendingContent then (c, [])
    else if c.respLen = 0 then (c, [])
    else if c.respLen > 0 ∧ (content.length : Int) + c.sent > c.respLen then (c, [])
    else if content.length > 0 then
      if c.readView.isHead then (c.readView, [])
      else contentTail content { c.readView with sent := c.readView.sent + content.length }
    else (c, []) := rfl

/-- The object when the length is looked for. -/
def recvSetup (c : Conn) : Conn := ({ c with st := .receivingContent } : Conn).setup

theorem recvContent_eq (c : Conn) : c.recvContent = if c.st = .receivingContent then (c, []) else
    recvTail { (recvSetup c) with clen := ((recvSetup c).announced (contentLengthIndex c.buf c.refs)).1 } ((recvSetup c).announced (contentLengthIndex c.buf c.refs)) := rfl

section
variable (pre : List Ev) (x : Bool) (st : Int)

theorem lift_emit (d : Conn) (e : Ev) : (lift pre x st d).emit e = lift pre x st (d.emit e) := by simp [lift, Conn.emit]

theorem lift_write (d : Conn) (e : Ev) : (lift pre x st d).write e = lift pre x st (d.write e) := by
  unfold Conn.write lift
  cases h : d.dev <;> simp

@[simp] theorem lift_st (d : Conn) : (lift pre x st d).st = d.st := rfl
@[simp] theorem lift_dev (d : Conn) : (lift pre x st d).dev = d.dev := rfl
@[simp] theorem lift_parser (d : Conn) : (lift pre x st d).parser = d.parser := rfl
@[simp] theorem lift_buf (d : Conn) : (lift pre x st d).buf = d.buf := rfl
@[simp] theorem lift_refs (d : Conn) : (lift pre x st d).refs = d.refs := rfl
@[simp] theorem lift_hdrN (d : Conn) : (lift pre x st d).hdrN = d.hdrN := rfl
@[simp] theorem lift_clen (d : Conn) : (lift pre x st d).clen = d.clen := rfl
@[simp] theorem lift_http11 (d : Conn) : (lift pre x st d).http11 = d.http11 := rfl
@[simp] theorem lift_req (d : Conn) : (lift pre x st d).req = d.req := rfl
@[simp] theorem lift_params (d : Conn) : (lift pre x st d).params = d.params := rfl
@[simp] theorem lift_uriDec (d : Conn) : (lift pre x st d).uriDec = d.uriDec := rfl
@[simp] theorem lift_fragDec (d : Conn) : (lift pre x st d).fragDec = d.fragDec := rfl
@[simp] theorem lift_pathDec (d : Conn) : (lift pre x st d).pathDec = d.pathDec := rfl
@[simp] theorem lift_queryDec (d : Conn) : (lift pre x st d).queryDec = d.queryDec := rfl
@[simp] theorem lift_respBuf (d : Conn) : (lift pre x st d).respBuf = d.respBuf := rfl
@[simp] theorem lift_respLen (d : Conn) : (lift pre x st d).respLen = d.respLen := rfl
@[simp] theorem lift_sent (d : Conn) : (lift pre x st d).sent = d.sent := rfl
@[simp] theorem lift_keepAlive (d : Conn) : (lift pre x st d).keepAlive = d.keepAlive := rfl
@[simp] theorem lift_chunked (d : Conn) : (lift pre x st d).chunked = d.chunked := rfl
@[simp] theorem lift_hdrValid (d : Conn) : (lift pre x st d).hdrValid = d.hdrValid := rfl
@[simp] theorem lift_viewsValid (d : Conn) : (lift pre x st d).viewsValid = d.viewsValid := rfl
@[simp] theorem lift_fault (d : Conn) : (lift pre x st d).fault = d.fault := rfl
@[simp] theorem lift_isHead (d : Conn) : (lift pre x st d).isHead = d.isHead := rfl

theorem lift_view (d : Conn) : (lift pre x st d).readView = lift pre x st d.readView := by
  unfold Conn.readView
  rw [lift_viewsValid]
  cases h : d.viewsValid
  · simp [lift]
  · simp

theorem lift_fill (d : Conn) (v : Dev) : (lift pre x st d).fill v = lift pre x st (d.fill v) := rfl
theorem lift_parse (d : Conn) : (lift pre x st d).parse = lift pre x st d.parse := rfl
theorem lift_setup (d : Conn) : (lift pre x st d).setup = lift pre x st d.setup := rfl
theorem lift_announced (d : Conn) (i : Option Nat) : (lift pre x st d).announced i = d.announced i := rfl
theorem lift_toReceiving (d : Conn) : (lift pre x st d).toReceivingHeaders = lift pre x st d.toReceivingHeaders := by
  unfold Conn.toReceivingHeaders
  rw [lift_st]
  split <;> rfl

theorem lift_processInput (d : Conn) : (lift pre x st d).processInput = (lift pre x st d.processInput.1, d.processInput.2) := by
  unfold Conn.processInput
  rw [lift_st, lift_dev]
  split
  · rfl
  · cases d.dev with
    | none => rfl
    | some v =>
      dsimp only
      rw [lift_fill, lift_st, lift_parse]
      generalize d.fill v = e
      by_cases h : e.st = .receivingHeaders
      · rw [if_pos h, if_pos h, lift_parser]
        generalize e.parse = f
        by_cases h1 : f.parser.nread > maxHeaderLength ∨ f.parser.hasError
        · rw [if_pos h1, if_pos h1]
        · rw [if_neg h1, if_neg h1]
          split <;> rfl
      · rw [if_neg h, if_neg h, lift_buf, lift_parser, lift_clen]
        split <;> rfl

theorem lift_recvTail (f : Conn) (a : Int × Bool) : recvTail (lift pre x st f) a = (lift pre x st (recvTail f a).1, (recvTail f a).2) := by
  unfold recvTail
  rw [lift_write, lift_buf, lift_refs]
  by_cases g1 : a.1 < 0
  · rw [if_pos g1, if_pos g1]
  · rw [if_neg g1, if_neg g1]
    by_cases g2 : a.1 > maxContentLength ∨ a.2 = false
    · rw [if_pos g2, if_pos g2]
    · rw [if_neg g2, if_neg g2]
      by_cases g3 : a.1 > 0
      · rw [if_pos g3, if_pos g3]
        split <;> rfl
      · rw [if_neg g3, if_neg g3]

theorem lift_recvContent (d : Conn) : (lift pre x st d).recvContent = (lift pre x st d.recvContent.1, d.recvContent.2) := by
  rw [recvContent_eq, recvContent_eq]
  by_cases h0 : d.st = .receivingContent
  · rw [if_pos h0, if_pos (show (lift pre x st d).st = _ from h0)]
  · rw [if_neg h0, if_neg (show ¬ (lift pre x st d).st = _ from h0)]
    exact lift_recvTail pre x st { (recvSetup d) with clen := ((recvSetup d).announced (contentLengthIndex d.buf d.refs)).1 } ((recvSetup d).announced (contentLengthIndex d.buf d.refs))

theorem lift_sendHeaders (d : Conn) : (lift pre x st d).sendHeaders = (lift pre x st d.sendHeaders.1, d.sendHeaders.2) := by
  have h1 : ∀ d : Conn, (if (lift pre x st d).hdrN ≠ (lift pre x st d).refs.length then (lift pre x st d).setup else lift pre x st d) =
      lift pre x st (if d.hdrN ≠ d.refs.length then d.setup else d) := by
    intro d
    rw [lift_hdrN, lift_refs]
    split <;> rfl
  unfold Conn.sendHeaders
  by_cases h0 : d.st = .sendingHeaders
  · rw [if_pos h0, if_pos (show (lift pre x st d).st = _ from h0)]
  · rw [if_neg h0, if_neg (show ¬ (lift pre x st d).st = _ from h0)]
    have h2 := h1 { d with st := .sendingHeaders }
    generalize he : (if ({ d with st := .sendingHeaders } : Conn).hdrN ≠ ({ d with st := .sendingHeaders } : Conn).refs.length then ({ d with st := .sendingHeaders } : Conn).setup else { d with st := .sendingHeaders }) = e at h2
    have h3 : (if ({ (lift pre x st d) with st := .sendingHeaders } : Conn).hdrN ≠ ({ (lift pre x st d) with st := .sendingHeaders } : Conn).refs.length then ({ (lift pre x st d) with st := .sendingHeaders } : Conn).setup else { (lift pre x st d) with st := .sendingHeaders }) = lift pre x st e := h2
    dsimp only at he h3 ⊢
    rw [he, h3]
    simp [lift, Conn.emit, Bool.or_assoc]

theorem lift_sendContent (d : Conn) : (lift pre x st d).sendContent = (lift pre x st d.sendContent.1, d.sendContent.2) := by
  unfold Conn.sendContent
  by_cases h0 : d.st = .sendingContent
  · rw [if_pos h0, if_pos (show (lift pre x st d).st = _ from h0)]
  · rw [if_neg h0, if_neg (show ¬ (lift pre x st d).st = _ from h0)]
    have hv := lift_view pre x st { d with st := .sendingContent, respBuf := [] }
    have hv' : ({ (lift pre x st d) with st := .sendingContent, respBuf := [] } : Conn).readView = _ := hv
    dsimp only at hv' ⊢
    by_cases h1 : d.respLen = 0
    · rw [if_pos h1, if_pos (show (lift pre x st d).respLen = _ from h1)]; rfl
    · rw [if_neg h1, if_neg (show ¬ (lift pre x st d).respLen = _ from h1), hv', lift_isHead]
      split <;> rfl

theorem lift_sendContentRest (d : Conn) : (lift pre x st d).sendContentRest = (lift pre x st d.sendContentRest.1, d.sendContentRest.2) := by
  unfold Conn.sendContentRest
  exact Prod.ext (ite_out (lift pre x st) Iff.rfl rfl rfl) rfl

theorem lift_complete (d : Conn) : (lift pre x st d).complete = (lift pre x st d.complete.1, d.complete.2) := by
  unfold Conn.complete
  rw [lift_st]
  split
  · rfl
  · exact Prod.ext (lift_emit pre x st { d with st := .completed } .completed) rfl

theorem lift_completedRest (d : Conn) : (lift pre x st d).completedRest = (lift pre x st d.completedRest.1, d.completedRest.2) := by
  unfold Conn.completedRest
  exact ite_out (fun o : Out => (lift pre x st o.1, o.2)) Iff.rfl rfl rfl

theorem lift_flush (k : Nat) (d : Conn) : (lift pre x st d).flush k = (lift pre x st (d.flush k).1, (d.flush k).2) := by
  unfold Conn.flush
  rw [lift_dev]
  repeat' split
  all_goals rfl

theorem lift_drain (d : Conn) : (lift pre x st d).drain = (lift pre x st d.drain.1, d.drain.2) := by
  unfold Conn.drain
  rw [lift_st]
  split <;> rfl

theorem lift_drainRest (d : Conn) : (lift pre x st d).drainRest = (lift pre x st d.drainRest.1, d.drainRest.2) := by
  unfold Conn.drainRest
  rw [lift_dev]
  repeat' split
  all_goals rfl

theorem lift_toFlushing (d : Conn) : (lift pre x st d).toFlushing = (lift pre x st d.toFlushing.1, d.toFlushing.2) := by
  unfold Conn.toFlushing
  rw [lift_st]
  split <;> rfl

theorem lift_flushingRest (d : Conn) : (lift pre x st d).flushingRest = (lift pre x st d.flushingRest.1, d.flushingRest.2) := by
  unfold Conn.flushingRest
  rw [lift_st, lift_dev]
  repeat' split
  all_goals rfl

theorem lift_toClosed (f : Bool) (d : Conn) : (lift pre x st d).toClosed f = (lift pre x st (d.toClosed f).1, (d.toClosed f).2) := by
  unfold Conn.toClosed
  rw [lift_st]
  split
  · rfl
  · exact Prod.ext (lift_emit pre x st { d with st := .closed } _) rfl

theorem lift_errorResponse (code : Int) (d : Conn) : (lift pre x st d).errorResponse code = (lift pre x st (d.errorResponse code).1, (d.errorResponse code).2) := by
  unfold Conn.errorResponse
  rw [lift_st, lift_write]
  split <;> rfl

theorem lift_writeResponse (s : Int) (hs : Headers) (ct : Bytes) (d : Conn) : (lift pre x st d).writeResponse s hs ct = (lift pre x st (d.writeResponse s hs ct).1, (d.writeResponse s hs ct).2) := by
  unfold Conn.writeResponse
  rw [lift_st]
  split <;> rfl

theorem lift_writeResponseRest (ct : Bytes) (d : Conn) : (lift pre x st d).writeResponseRest ct = (lift pre x st (d.writeResponseRest ct).1, (d.writeResponseRest ct).2) := by
  unfold Conn.writeResponseRest
  simp only [lift_view, lift_isHead]
  repeat' split
  all_goals rfl

theorem lift_writeHeaders (s : Int) (hs : Headers) (d : Conn) : ∃ st', (lift pre x st d).writeHeaders s hs = (lift pre x st' (d.writeHeaders s hs).1, (d.writeHeaders s hs).2) := by
  unfold Conn.writeHeaders
  rw [lift_st]
  split
  · exact ⟨st, rfl⟩
  · simp only [lift_view]
    generalize d.readView = e
    simp only [lift_respBuf, lift_http11, lift_req, lift_respLen, lift_chunked]
    split
    · exact ⟨st, rfl⟩
    · rename_i h _
      refine ⟨s, Prod.ext ?_ rfl⟩
      exact lift_write pre x s { e with status := s, respBuf := h.bytes, respLen := h.len, chunked := h.chunked, keepAlive := h.keepAlive } (.head h)

theorem lift_contentTail (ct : Bytes) (e : Conn) : contentTail ct (lift pre x st e) = (lift pre x st (contentTail ct e).1, (contentTail ct e).2) := by
  unfold contentTail
  dsimp only
  rw [lift_chunked, lift_write]
  exact ite_out (fun o : Out => (lift pre x st o.1, o.2)) Iff.rfl rfl rfl

theorem lift_writeContent (ct : Bytes) (d : Conn) : (lift pre x st d).writeContent ct = (lift pre x st (d.writeContent ct).1, (d.writeContent ct).2) := by
  rw [writeContent_eq, writeContent_eq, lift_view]
  let L := fun o : Out => (lift pre x st o.1, o.2)
  refine ite_out L Iff.rfl rfl (ite_out L Iff.rfl rfl (ite_out L Iff.rfl rfl (ite_out L Iff.rfl (ite_out L Iff.rfl rfl ?_) rfl)))
  exact lift_contentTail pre x st ct { d.readView with sent := d.readView.sent + ct.length }

theorem lift_endContent (d : Conn) : (lift pre x st d).endContent = (lift pre x st d.endContent.1, d.endContent.2) := by
  unfold Conn.endContent
  simp only [lift_st, lift_respLen, lift_chunked, lift_write]
  repeat' split
  all_goals rfl

theorem lift_exec (k : Nat) (i : Instr) (d : Conn) : ∃ st', exec k i (lift pre x st d) = (lift pre x st' (exec k i d).1, (exec k i d).2) := by
  cases i with
  | writeHeaders s hs => exact lift_writeHeaders pre x st s hs d
  | env => exact ⟨st, rfl⟩
  | processInput => exact ⟨st, lift_processInput pre x st d⟩
  | recvContent => exact ⟨st, lift_recvContent pre x st d⟩
  | sendHeaders => exact ⟨st, lift_sendHeaders pre x st d⟩
  | sendContent => exact ⟨st, lift_sendContent pre x st d⟩
  | sendContentRest => exact ⟨st, lift_sendContentRest pre x st d⟩
  | completed => exact ⟨st, lift_complete pre x st d⟩
  | completedRest => exact ⟨st, lift_completedRest pre x st d⟩
  | completedRest2 => exact ⟨st, Prod.ext (lift_toReceiving pre x st d) rfl⟩
  | flush => exact ⟨st, lift_flush pre x st k d⟩
  | drain => exact ⟨st, lift_drain pre x st d⟩
  | drainRest => exact ⟨st, lift_drainRest pre x st d⟩
  | flushing => exact ⟨st, lift_toFlushing pre x st d⟩
  | flushingRest => exact ⟨st, lift_flushingRest pre x st d⟩
  | closed f => exact ⟨st, lift_toClosed pre x st f d⟩
  | closedRest => exact ⟨st, rfl⟩
  | errorResponse c => exact ⟨st, lift_errorResponse pre x st c d⟩
  | writeResponse s hs ct => exact ⟨st, lift_writeResponse pre x st s hs ct d⟩
  | writeResponseRest ct => exact ⟨st, lift_writeResponseRest pre x st ct d⟩
  | writeContent ct => exact ⟨st, lift_writeContent pre x st ct d⟩
  | endContent => exact ⟨st, lift_endContent pre x st d⟩

theorem lift_requestParams (d : Conn) : (lift pre x st d).requestParams = lift pre x st d.requestParams := by
  unfold Conn.requestParams
  refine ite_out (lift pre x st) Iff.rfl ?_ rfl
  simp [lift, Bool.or_assoc]

/-- The moves of the environment, but `init`. -/
theorem lift_step (stack : List Instr) (d : Conn) (l : Label) (hl : l ≠ .init) :
    (Conf.step ⟨lift pre x st d, stack⟩ l = none ∧ Conf.step ⟨d, stack⟩ l = none) ∨
    ∃ st' t, Conf.step ⟨d, stack⟩ l = some t ∧ Conf.step ⟨lift pre x st d, stack⟩ l = some ⟨lift pre x st' t.c, t.stack⟩ := by
  unfold Conf.step
  rw [lift_fault]
  cases hf : d.fault with
  | some f => exact .inl ⟨rfl, rfl⟩
  | none =>
    simp only [Option.isSome_none, Bool.false_eq_true, if_false]
    cases l with
    | init => exact absurd rfl hl
    | tau k =>
      cases stack with
      | nil => exact .inl ⟨rfl, rfl⟩
      | cons i rest =>
        obtain ⟨st', h⟩ := lift_exec pre x st k i d
        cases i with
        | env => exact .inl ⟨rfl, rfl⟩
        | _ => exact .inr ⟨st', _, rfl, by dsimp only; rw [h]⟩
    | ret =>
      cases stack with
      | nil => exact .inl ⟨rfl, rfl⟩
      | cons i rest =>
        cases i with
        | env => exact .inr ⟨st, _, rfl, rfl⟩
        | _ => exact .inl ⟨rfl, rfl⟩
    | _ =>
      dsimp only
      rw [show Conf.inEnv ⟨lift pre x st d, stack⟩ = Conf.inEnv ⟨d, stack⟩ from rfl]
      cases Conf.inEnv ⟨d, stack⟩ with
      | false => exact .inl ⟨rfl, rfl⟩
      | true =>
        simp only [if_true]
        first
        | exact .inr ⟨st, _, rfl, rfl⟩
        | (rw [lift_dev]
           cases d.dev with
           | none => exact .inl ⟨rfl, rfl⟩
           | some v => first
             | exact .inr ⟨st, _, rfl, rfl⟩
             | (refine .inr ⟨st, _, rfl, ?_⟩
                dsimp only
                rw [← lift_emit]; rfl))
        | exact .inr ⟨st, _, rfl, by rw [lift_requestParams]⟩
        | exact .inr ⟨st, _, rfl, by unfold Conn.setRequestParam; rw [lift_requestParams]; rfl⟩
        | (rename_i k
           refine .inr ⟨st, _, rfl, ?_⟩
           have : (lift pre x st d).readDecoded k = lift pre x st (d.readDecoded k) := by
             cases k <;> exact ite_out (lift pre x st) Iff.rfl (by simp [lift, Bool.or_assoc]) rfl
           rw [this])
end

/-! ### before the first request -/

/-- Additional members that still hold what the previous client left. -/
def early (pre : List Ev) (x : Bool) (o : Conn) (n : Nat) (v : Bool) (d : Conn) : Conn :=
  { d with log := pre ++ d.log, staleRead := x || d.staleRead, status := o.status, req := o.req, uriDec := o.uriDec, fragDec := o.fragDec, pathDec := o.pathDec, queryDec := o.queryDec, respLen := o.respLen, sent := o.sent, keepAlive := o.keepAlive, chunked := o.chunked, hdrN := n, hdrValid := v }

/-- What may be below the top of the stack then. -/
def Instr.idleFrame : Instr → Bool
  | .env | .drainRest | .flushingRest | .closedRest => true
  | _ => false

/-- What is not executed then. -/
def Instr.late : Instr → Bool
  | .sendContent | .sendContentRest | .completed | .completedRest | .completedRest2 | .writeResponseRest _ => true
  | _ => false

/-- No request was handed out yet. -/
structure EarlyOk (d : Conn) (stack : List Instr) : Prop where
  none : readys d.log = []
  st : d.st = .receivingHeaders ∨ d.st = .receivingContent ∨ d.st = .flushing ∨ d.st = .closed
  frames : ∀ i ∈ stack.tail, i.idleFrame = true
  top : ∀ i, stack.head? = some i → i.late = false
  ready : stack.head? = some .sendHeaders → d.st = .receivingContent
 
/-- How a used object `c` is related to a new one `d` that has been through the same. -/
def Related (pre : List Ev) (x : Bool) (o : Conn) (c d : Conn) (stack : List Instr) : Prop :=
  (∃ st, c = lift pre x st d) ∨
  (EarlyOk d stack ∧ ∃ n v, c = early pre x o n v d ∧ (d.st = .receivingContent → n = d.hdrN ∧ v = d.hdrValid))

section
variable (pre : List Ev) (x : Bool) (o : Conn) (n : Nat) (v : Bool)

theorem early_emit (d : Conn) (e : Ev) : (early pre x o n v d).emit e = early pre x o n v (d.emit e) := by simp [early, Conn.emit]

theorem early_write (d : Conn) (e : Ev) : (early pre x o n v d).write e = early pre x o n v (d.write e) := by
  unfold Conn.write early
  cases h : d.dev <;> simp

theorem readys_nil (log : List Ev) (e : Ev) (h : readys log = []) (he : Ev.request e = none) : readys (log ++ [e]) = [] := by
  rw [readys_snoc, h, he]; rfl

/-- What an instruction does that neither looks at the leftovers nor hands out a request. -/
theorem related_same {d d' : Conn} {i : Instr} {rest push : List Instr} (h : EarlyOk d (i :: rest))
    (hlog : readys d'.log = []) (hst : d'.st = .receivingHeaders ∨ d'.st = .receivingContent ∨ d'.st = .flushing ∨ d'.st = .closed)
    (hpush : ∀ j ∈ push.tail, j.idleFrame = true) (htop : ∀ j, push.head? = some j → j.late = false) (hready : push.head? = some .sendHeaders → d'.st = .receivingContent) :
    EarlyOk d' (push ++ rest) := by
  have hr : ∀ j ∈ rest, j.idleFrame = true := h.frames
  refine ⟨hlog, hst, ?_, ?_, ?_⟩
  · cases push with
    | nil => intro j hj; exact hr j (List.mem_of_mem_tail hj)
    | cons a as =>
      intro j hj
      rcases List.mem_append.1 hj with hj | hj
      · exact hpush j hj
      · exact hr j hj
  · cases push with
    | nil =>
      intro j hj
      have := hr j (List.mem_of_mem_head? hj)
      cases j <;> first | rfl | cases this
    | cons a as => exact htop
  · cases push with
    | nil =>
      intro hj
      have := hr _ (List.mem_of_mem_head? hj)
      cases this
    | cons a as => exact hready

/-- The new object after an instruction that leaves what concerns headers alone. -/
theorem related_early {d d' : Conn} {i : Instr} {rest push : List Instr} (h : EarlyOk d (i :: rest)) (hn : d.st = .receivingContent → n = d.hdrN ∧ v = d.hdrValid)
    (hh : d'.hdrN = d.hdrN ∧ d'.hdrValid = d.hdrValid) (hs : d'.st = .receivingContent → d.st = .receivingContent)
    (hlog : readys d'.log = []) (hst : d'.st = .receivingHeaders ∨ d'.st = .receivingContent ∨ d'.st = .flushing ∨ d'.st = .closed)
    (hpush : ∀ j ∈ push.tail, j.idleFrame = true) (htop : ∀ j, push.head? = some j → j.late = false) (hready : push.head? = some .sendHeaders → d'.st = .receivingContent) :
    Related pre x o (early pre x o n v d') d' (push ++ rest) :=
  .inr ⟨related_same h hlog hst hpush htop hready, n, v, rfl, fun e => by rw [hh.1, hh.2]; exact hn (hs e)⟩

theorem readys_write (d : Conn) (e : Ev) (h : readys d.log = []) (he : Ev.request e = none) : readys (d.write e).log = [] := by
  unfold Conn.write
  split
  · exact h
  · exact readys_nil _ _ h he

theorem write_same (d : Conn) (e : Ev) : (d.write e).st = d.st ∧ (d.write e).hdrN = d.hdrN ∧ (d.write e).hdrValid = d.hdrValid := by
  unfold Conn.write
  split <;> exact ⟨rfl, rfl, rfl⟩

/-- A small choice in an instruction. -/
theorem related_ite {p q : Prop} [Decidable p] [Decidable q] {a b a' b' : Out} {rest : List Instr} (hpq : p ↔ q)
    (h1 : q → a.2 = a'.2 ∧ Related pre x o a.1 a'.1 (a'.2 ++ rest)) (h2 : ¬ q → b.2 = b'.2 ∧ Related pre x o b.1 b'.1 (b'.2 ++ rest)) :
    (if p then a else b).2 = (if q then a' else b').2 ∧ Related pre x o (if p then a else b).1 (if q then a' else b').1 ((if q then a' else b').2 ++ rest) := by
  by_cases h : q
  · rw [if_pos h, if_pos (hpq.2 h)]; exact h1 h
  · rw [if_neg h, if_neg (fun k => h (hpq.1 k))]; exact h2 h

theorem early_exec (k : Nat) (i : Instr) (d : Conn) (rest : List Instr) (h : EarlyOk d (i :: rest)) (hn : d.st = .receivingContent → n = d.hdrN ∧ v = d.hdrValid) :
    (exec k i (early pre x o n v d)).2 = (exec k i d).2 ∧ Related pre x o (exec k i (early pre x o n v d)).1 (exec k i d).1 ((exec k i d).2 ++ rest) := by
  have skip : (early pre x o n v d, ([] : List Instr)).2 = (d, ([] : List Instr)).2 ∧ Related pre x o (early pre x o n v d, ([] : List Instr)).1 (d, ([] : List Instr)).1 ((d, ([] : List Instr)).2 ++ rest) :=
    ⟨rfl, related_early pre x o n v h hn ⟨rfl, rfl⟩ id h.none h.st (by simp) (by simp) (by simp)⟩
  have quiet : ∀ (d' : Conn) (push : List Instr), d'.log = d.log → d'.st = d.st → d'.hdrN = d.hdrN → d'.hdrValid = d.hdrValid → (∀ j ∈ push.tail, j.idleFrame = true) →
      (∀ j, push.head? = some j → j.late = false) → (push.head? = some .sendHeaders → d.st = .receivingContent) →
      Related pre x o (early pre x o n v d') d' (push ++ rest) := fun d' push h1 h2 h3 h4 h5 h6 h7 =>
    related_early pre x o n v h hn ⟨h3, h4⟩ (fun e => h2 ▸ e) (by rw [h1]; exact h.none) (by rw [h2]; exact h.st) h5 h6 (fun e => by rw [h2]; exact h7 e)
  cases i with
  | env => exact skip
  | processInput =>
    simp only [exec]
    unfold Conn.processInput
    refine related_ite pre x o Iff.rfl (fun _ => skip) (fun hst => ?_)
    rw [show (early pre x o n v d).dev = d.dev from rfl]
    cases d.dev with
    | none => exact ⟨rfl, quiet { d with dev := none, fault := some .nullDevice } [] rfl rfl rfl rfl (by simp) (by simp) (by simp)⟩
    | some w =>
      dsimp only
      have key : ∀ (e : Conn) (push : List Instr), e.log = d.log → e.st = d.st → e.hdrN = d.hdrN → e.hdrValid = (d.hdrValid && w.inp == []) → (∀ j ∈ push.tail, j.idleFrame = true) →
          (∀ j, push.head? = some j → j.late = false) → (push.head? = some .sendHeaders → d.st = .receivingContent) →
          Related pre x o (early pre x o n (v && w.inp == []) e) e (push ++ rest) := by
        intro e push h1 h2 h3 h4 h5 h6 h7
        refine .inr ⟨related_same h (by rw [h1]; exact h.none) (by rw [h2]; exact h.st) h5 h6 (fun e => by rw [h2]; exact h7 e), n, _, rfl, fun hc => ?_⟩
        obtain ⟨a, b⟩ := hn (h2 ▸ hc)
        rw [h3, h4, a, b]; exact ⟨rfl, rfl⟩
      refine related_ite pre x o Iff.rfl (fun hh => ?_) (fun hh => ?_)
      · refine related_ite pre x o Iff.rfl (fun _ => ?_) (fun _ => related_ite pre x o Iff.rfl (fun _ => ?_) (fun _ => ?_))
        · exact ⟨rfl, key (d.fill w).parse [.errorResponse 400] rfl rfl rfl rfl (by simp) (by intro j hj; cases hj; rfl) (by intro hj; cases hj)⟩
        · exact ⟨rfl, key (d.fill w).parse [.recvContent] rfl rfl rfl rfl (by simp) (by intro j hj; cases hj; rfl) (by intro hj; cases hj)⟩
        · exact ⟨rfl, key (d.fill w).parse [] rfl rfl rfl rfl (by simp) (by simp) (by simp)⟩
      · refine related_ite pre x o Iff.rfl (fun _ => ?_) (fun _ => ?_)
        · refine ⟨rfl, key (d.fill w) [.sendHeaders] rfl rfl rfl rfl (by simp) (by intro j hj; cases hj; rfl) (fun _ => ?_)⟩
          have h2 : ¬ d.st = .receivingHeaders := hh
          rcases h.st with e | e | e | e
          · exact absurd e h2
          · exact e
          · exact absurd ⟨h2, by rw [e]; simp⟩ hst
          · exact absurd ⟨h2, by rw [e]; simp⟩ hst
        · exact ⟨rfl, key (d.fill w) [] rfl rfl rfl rfl (by simp) (by simp) (by simp)⟩
  | recvContent =>
    simp only [exec]
    rw [recvContent_eq, recvContent_eq]
    refine related_ite pre x o Iff.rfl (fun _ => skip) (fun _ => ?_)
    have key : ∀ (f : Conn) (a : Int × Bool), f.log = d.log → f.st = .receivingContent →
        (recvTail (early pre x o f.hdrN f.hdrValid f) a).2 = (recvTail f a).2 ∧ Related pre x o (recvTail (early pre x o f.hdrN f.hdrValid f) a).1 (recvTail f a).1 ((recvTail f a).2 ++ rest) := by
      intro f a hl hs
      unfold recvTail
      have mk : ∀ (g : Conn) (push : List Instr), readys g.log = [] → g.st = .receivingContent → (∀ j ∈ push.tail, j.idleFrame = true) →
          (∀ j, push.head? = some j → j.late = false) → Related pre x o (early pre x o g.hdrN g.hdrValid g) g (push ++ rest) := fun g push h1 h2 h3 h4 =>
        .inr ⟨related_same h h1 (.inr (.inl h2)) h3 h4 (fun _ => h2), _, _, rfl, fun _ => ⟨rfl, rfl⟩⟩
      have hl' : readys f.log = [] := by rw [hl]; exact h.none
      refine related_ite pre x o Iff.rfl (fun _ => ⟨rfl, mk f [.errorResponse 400] hl' hs (by simp) (by intro j hj; cases hj; rfl)⟩)
        (fun _ => related_ite pre x o Iff.rfl (fun _ => ⟨rfl, mk f [.errorResponse 413] hl' hs (by simp) (by intro j hj; cases hj; rfl)⟩)
        (fun _ => related_ite pre x o Iff.rfl (fun _ => ⟨rfl, ?_⟩) (fun _ => ⟨rfl, mk f [.sendHeaders] hl' hs (by simp) (by intro j hj; cases hj; rfl)⟩)))
      rw [early_write]
      have hb : (early pre x o f.hdrN f.hdrValid f).buf = f.buf := rfl
      have hr : (early pre x o f.hdrN f.hdrValid f).refs = f.refs := rfl
      rw [hb, hr]
      split
      · obtain ⟨w1, w2, w3⟩ := write_same f .interim
        have := mk { (f.write .interim) with hdrN := (f.write .interim).hdrN - 1, hdrValid := false } [.processInput] (readys_write f .interim hl' rfl) (by rw [← hs, ← w1]) (by simp) (by intro j hj; cases hj; rfl)
        have e : ({ (early pre x o f.hdrN f.hdrValid (f.write .interim)) with hdrN := (early pre x o f.hdrN f.hdrValid (f.write .interim)).hdrN - 1, hdrValid := false } : Conn) =
            early pre x o ((f.write .interim).hdrN - 1) false { (f.write .interim) with hdrN := (f.write .interim).hdrN - 1, hdrValid := false } := by
          rw [w2]; rfl
        dsimp only
        rw [e]; exact this
      · exact mk { f with hdrN := f.hdrN - 1, hdrValid := false } [.processInput] hl' hs (by simp) (by intro j hj; cases hj; rfl)
    exact key { (recvSetup d) with clen := ((recvSetup d).announced (contentLengthIndex d.buf d.refs)).1 } _ rfl rfl
  | sendHeaders =>
    have hs := h.ready rfl
    obtain ⟨rfl, rfl⟩ := hn hs
    have hne : ¬ d.st = .sendingHeaders := by rw [hs]; simp
    refine ⟨?_, .inl ⟨o.status, ?_⟩⟩
    · simp only [exec]
      unfold Conn.sendHeaders
      rw [if_neg hne, if_neg (show ¬ (early pre x o d.hdrN d.hdrValid d).st = _ from hne)]
    · have e0 : ∀ c : Conn, (if c.hdrN ≠ c.refs.length then c.setup else c) = { c with buf := (if c.hdrN ≠ c.refs.length then c.setup else c).buf, hdrN := (if c.hdrN ≠ c.refs.length then c.setup else c).hdrN, hdrValid := (if c.hdrN ≠ c.refs.length then c.setup else c).hdrValid } := by
        intro c; split <;> rfl
      simp only [exec]
      unfold Conn.sendHeaders
      rw [if_neg hne, if_neg (show ¬ (early pre x o d.hdrN d.hdrValid d).st = _ from hne)]
      dsimp only [early]
      by_cases hc : d.hdrN ≠ d.refs.length
      · simp [hc, lift, Conn.emit, Conn.setup, Bool.or_assoc]
      · simp [hc, lift, Conn.emit, Conn.setup, Bool.or_assoc]
  | flush =>
    simp only [exec]
    unfold Conn.flush
    rw [show (early pre x o n v d).dev = d.dev from rfl]
    cases d.dev with
    | none => exact skip
    | some w =>
      dsimp only
      exact related_ite pre x o Iff.rfl (fun _ => ⟨rfl, quiet { d with dev := some { w with pending := w.pending - k } } [.env] rfl rfl rfl rfl (by simp) (by intro j hj; cases hj; rfl) (by intro hj; cases hj)⟩) (fun _ => skip)
  | drain =>
    exact related_ite pre x o Iff.rfl (fun _ => skip) (fun _ => ⟨rfl, quiet d [.flush, .drainRest] rfl rfl rfl rfl (by simp [Instr.idleFrame]) (by intro j hj; cases hj; rfl) (by intro hj; cases hj)⟩)
  | drainRest =>
    simp only [exec]
    unfold Conn.drainRest
    rw [show (early pre x o n v d).dev = d.dev from rfl]
    cases d.dev with
    | none => exact skip
    | some w =>
      dsimp only
      exact related_ite pre x o Iff.rfl (fun _ => ⟨rfl, quiet d [.closed false] rfl rfl rfl rfl (by simp) (by intro j hj; cases hj; rfl) (by intro hj; cases hj)⟩) (fun _ => skip)
  | flushing =>
    refine related_ite pre x o Iff.rfl (fun _ => skip) (fun _ => ⟨rfl, ?_⟩)
    exact related_early pre x o n v (d' := { d with st := .flushing }) (push := [.drain, .flushingRest]) h hn ⟨rfl, rfl⟩ (by intro hj; cases hj) h.none (.inr (.inr (.inl rfl)))
      (by simp [Instr.idleFrame]) (by intro j hj; cases hj; rfl) (by intro hj; cases hj)
  | flushingRest =>
    simp only [exec]
    unfold Conn.flushingRest
    rw [show (early pre x o n v d).dev = d.dev from rfl]
    refine related_ite pre x o Iff.rfl (fun _ => ?_) (fun _ => skip)
    cases d.dev with
    | none => exact skip
    | some w => exact ⟨rfl, quiet { d with dev := some { w with drainConn := true } } [] rfl rfl rfl rfl (by simp) (by simp) (by simp)⟩
  | closed f =>
    refine related_ite pre x o Iff.rfl (fun _ => skip) (fun _ => ⟨rfl, ?_⟩)
    have := related_early pre x o n v (d' := ({ d with st := .closed } : Conn).emit (.closed f (match d.dev with | some d => d.pending | none => 0))) (push := [.env, .closedRest]) h hn ⟨rfl, rfl⟩
      (by intro hj; cases hj) (readys_nil _ _ h.none rfl) (.inr (.inr (.inr rfl))) (by simp [Instr.idleFrame]) (by intro j hj; cases hj; rfl) (by intro hj; cases hj)
    rw [← early_emit] at this
    exact this
  | closedRest => exact ⟨rfl, quiet { d with dev := none } [] rfl rfl rfl rfl (by simp) (by simp) (by simp)⟩
  | errorResponse code =>
    simp only [exec]
    unfold Conn.errorResponse
    rw [early_write]
    refine related_ite pre x o Iff.rfl (fun _ => skip) (fun _ => ⟨rfl, ?_⟩)
    obtain ⟨w1, w2, w3⟩ := write_same d (.errorReply code)
    exact related_early pre x o n v (push := [.flushing]) h hn ⟨w2, w3⟩ (fun e => w1 ▸ e) (readys_write d _ h.none rfl) (by rw [w1]; exact h.st) (by simp)
      (by intro j hj; cases hj; rfl) (by intro hj; cases hj)
  | writeResponse s hs ct =>
    have hg : d.st ≠ .sendingHeaders := by rcases h.st with e | e | e | e <;> rw [e] <;> simp
    simp only [exec, Conn.writeResponse]
    rw [if_pos hg, if_pos (show (early pre x o n v d).st ≠ _ from hg)]
    exact skip
  | writeHeaders s hs =>
    have hg : d.st ≠ .sendingHeaders := by rcases h.st with e | e | e | e <;> rw [e] <;> simp
    simp only [exec, Conn.writeHeaders]
    rw [if_pos hg, if_pos (show (early pre x o n v d).st ≠ _ from hg)]
    exact skip
  | writeContent ct =>
    have hg : d.st ≠ .sendingContent := by rcases h.st with e | e | e | e <;> rw [e] <;> simp
    simp only [exec, writeContent_eq]
    rw [if_pos hg, if_pos (show (early pre x o n v d).st ≠ _ from hg)]
    exact skip
  | endContent =>
    have hg : d.st ≠ .sendingContent := by rcases h.st with e | e | e | e <;> rw [e] <;> simp
    simp only [exec, Conn.endContent]
    rw [if_pos hg, if_pos (show (early pre x o n v d).st ≠ _ from hg)]
    exact skip
  | sendContent => exact absurd (h.top _ rfl) (by simp [Instr.late])
  | sendContentRest => exact absurd (h.top _ rfl) (by simp [Instr.late])
  | completed => exact absurd (h.top _ rfl) (by simp [Instr.late])
  | completedRest => exact absurd (h.top _ rfl) (by simp [Instr.late])
  | completedRest2 => exact absurd (h.top _ rfl) (by simp [Instr.late])
  | writeResponseRest ct => exact absurd (h.top _ rfl) (by simp [Instr.late])

/-- The moves of the environment, but `init` and those that use the request before there is one. -/
theorem early_step (stack : List Instr) (d : Conn) (l : Label) (hl : l ≠ .init) (hu : ¬ UsesRequest l) (h : EarlyOk d stack) (hn : d.st = .receivingContent → n = d.hdrN ∧ v = d.hdrValid) :
    (Conf.step ⟨early pre x o n v d, stack⟩ l = none ∧ Conf.step ⟨d, stack⟩ l = none) ∨
    ∃ s t, Conf.step ⟨d, stack⟩ l = some t ∧ Conf.step ⟨early pre x o n v d, stack⟩ l = some s ∧ s.stack = t.stack ∧ Related pre x o s.c t.c t.stack := by
  have hin : ∀ (d' : Conn) (i : Instr), Conf.inEnv ⟨d, stack⟩ = true → d'.log = d.log → d'.st = d.st → d'.hdrN = d.hdrN → d'.hdrValid = d.hdrValid → i.late = false → i ≠ .sendHeaders →
      Related pre x o (early pre x o n v d') d' (i :: stack) := by
    intro d' i he h1 h2 h3 h4 h5 h6
    refine .inr ⟨⟨by rw [h1]; exact h.none, by rw [h2]; exact h.st, ?_, ?_, ?_⟩, n, v, rfl, fun e => by rw [h3, h4]; exact hn (h2 ▸ e)⟩
    · intro j hj
      have hj : j ∈ stack := hj
      cases stack with
      | nil => cases hj
      | cons a as =>
        rcases List.mem_cons.1 hj with rfl | hj
        · cases j <;> first | rfl | cases he
        · exact h.frames j hj
    · intro j hj; cases hj; exact h5
    · intro hj; cases hj; exact absurd rfl h6
  unfold Conf.step
  rw [show (early pre x o n v d).fault = d.fault from rfl]
  cases hf : d.fault with
  | some f => exact .inl ⟨rfl, rfl⟩
  | none =>
    simp only [Option.isSome_none, Bool.false_eq_true, if_false]
    cases l with
    | init => exact absurd rfl hl
    | readParams => exact absurd trivial hu
    | setParam _ _ => exact absurd trivial hu
    | readDecoded _ => exact absurd trivial hu
    | tau k =>
      cases stack with
      | nil => exact .inl ⟨rfl, rfl⟩
      | cons i rest =>
        obtain ⟨h1, h2⟩ := early_exec pre x o n v k i d rest h hn
        cases i with
        | env => exact .inl ⟨rfl, rfl⟩
        | _ => exact .inr ⟨_, _, rfl, rfl, by dsimp only; rw [h1], h2⟩
    | ret =>
      cases stack with
      | nil => exact .inl ⟨rfl, rfl⟩
      | cons i rest =>
        cases i with
        | env => exact .inr ⟨_, _, rfl, rfl, rfl, related_early pre x o n v (push := []) h hn ⟨rfl, rfl⟩ id h.none h.st (by simp) (by simp) (by simp)⟩
        | _ => exact .inl ⟨rfl, rfl⟩
    | call a =>
      dsimp only
      rw [show Conf.inEnv ⟨early pre x o n v d, stack⟩ = Conf.inEnv ⟨d, stack⟩ from rfl]
      cases he : Conf.inEnv ⟨d, stack⟩ with
      | false => exact .inl ⟨rfl, rfl⟩
      | true => exact .inr ⟨_, _, rfl, rfl, rfl, hin d a.instr he rfl rfl rfl rfl (by cases a <;> rfl) (by cases a <;> simp [Call.instr])⟩
    | recv bs =>
      dsimp only
      rw [show Conf.inEnv ⟨early pre x o n v d, stack⟩ = Conf.inEnv ⟨d, stack⟩ from rfl, show (early pre x o n v d).dev = d.dev from rfl]
      cases he : Conf.inEnv ⟨d, stack⟩ with
      | false => exact .inl ⟨rfl, rfl⟩
      | true =>
        simp only [if_true]
        cases d.dev with
        | none => exact .inl ⟨rfl, rfl⟩
        | some w =>
          refine .inr ⟨_, _, rfl, rfl, rfl, .inr ⟨⟨readys_nil _ _ h.none rfl, h.st, h.frames, h.top, h.ready⟩, n, v, ?_, hn⟩⟩
          rw [← early_emit]; rfl
    | bytesWritten k =>
      dsimp only
      rw [show Conf.inEnv ⟨early pre x o n v d, stack⟩ = Conf.inEnv ⟨d, stack⟩ from rfl, show (early pre x o n v d).dev = d.dev from rfl]
      cases he : Conf.inEnv ⟨d, stack⟩ with
      | false => exact .inl ⟨rfl, rfl⟩
      | true =>
        simp only [if_true]
        cases d.dev with
        | none => exact .inl ⟨rfl, rfl⟩
        | some w =>
          refine .inr ⟨_, _, rfl, rfl, rfl, ?_⟩
          dsimp only
          split
          · exact hin { d with dev := some { w with pending := w.pending - k } } .drain he rfl rfl rfl rfl rfl (by simp)
          · exact .inr ⟨⟨h.none, h.st, h.frames, h.top, h.ready⟩, n, v, rfl, hn⟩

theorem related_step (s t : Conf) (l : Label) (hs : s.stack = t.stack) (hr : Related pre x o s.c t.c t.stack) (hl : l ≠ .init) (hu : UsesRequest l → readys t.c.log ≠ []) :
    (s.step l = none ∧ t.step l = none) ∨ ∃ s' t', t.step l = some t' ∧ s.step l = some s' ∧ s'.stack = t'.stack ∧ Related pre x o s'.c t'.c t'.stack := by
  obtain ⟨c, stack⟩ := s
  obtain ⟨d, stack'⟩ := t
  dsimp only at hs hr hu
  subst hs
  rcases hr with ⟨st, rfl⟩ | ⟨h, n, v, rfl, hn⟩
  · rcases lift_step pre x st stack d l hl with h | ⟨st', t', h1, h2⟩
    · exact .inl h
    · exact .inr ⟨_, t', h1, h2, rfl, .inl ⟨st', rfl⟩⟩
  · rcases early_step pre x o n v stack d l hl (fun k => hu k h.none) h hn with h | ⟨s', t', h1, h2, h3, h4⟩
    · exact .inl h
    · exact .inr ⟨s', t', h1, h2, h3, h4⟩

theorem related_run (ls : List Label) : ∀ (s t : Conf), s.stack = t.stack → Related pre x o s.c t.c t.stack → .init ∉ ls → AsksInTime t ls →
    (s.run ls = none ∧ t.run ls = none) ∨ ∃ s' t', t.run ls = some t' ∧ s.run ls = some s' ∧ s'.stack = t'.stack ∧ Related pre x o s'.c t'.c t'.stack := by
  induction ls with
  | nil => intro s t h1 h2 _ _; exact .inr ⟨s, t, rfl, rfl, h1, h2⟩
  | cons l ls ih =>
    intro s t h1 h2 hi ha
    simp only [List.mem_cons, not_or] at hi
    rcases related_step pre x o s t l h1 h2 (fun e => hi.1 e.symm) (fun hu => ha [] l ls t rfl hu rfl) with ⟨k1, k2⟩ | ⟨s', t', k1, k2, k3, k4⟩
    · exact .inl ⟨by simp [Conf.run, k1], by simp [Conf.run, k2]⟩
    · rcases ih s' t' k3 k4 hi.2 (fun a l' b t'' e hu hrun => ha (l :: a) l' b t'' (by rw [e]; rfl) hu (by simp [Conf.run, k1, hrun])) with ⟨m1, m2⟩ | ⟨s2, t2, m1, m2, m3, m4⟩
      · exact .inl ⟨by simp [Conf.run, k2, m1], by simp [Conf.run, k1, m2]⟩
      · exact .inr ⟨s2, t2, by simp [Conf.run, k1, m1], by simp [Conf.run, k2, m2], m3, m4⟩

theorem related_asNew {s t : Conf} (hs : s.stack = t.stack) (hr : Related pre x o s.c t.c t.stack) : AsNew pre s t := by
  obtain ⟨c, stack⟩ := s
  dsimp only at hs hr
  rcases hr with ⟨st, rfl⟩ | ⟨h, n, v, rfl, hn⟩
  · exact ⟨rfl, hs, rfl, rfl, rfl, fun _ => ⟨rfl, rfl, rfl, fun d => by cases d <;> rfl⟩⟩
  · exact ⟨rfl, hs, rfl, rfl, rfl, fun k => absurd h.none k⟩

end

/-! ### the buffer of the response head is empty between requests -/

/-- The head of a response is kept only from when it is written to the next instruction. -/
def HeadGone (s : Conf) : Prop := s.c.fault.isSome = true ∨ s.c.respBuf = [] ∨ (∃ rest, s.stack = .sendContent :: rest) ∧ s.c.st = .sendingHeaders

theorem write_respBuf (c : Conn) (e : Ev) : (c.write e).respBuf = c.respBuf ∧ (c.write e).st = c.st := by unfold Conn.write; split <;> exact ⟨rfl, rfl⟩
theorem view_respBuf (c : Conn) : c.readView.respBuf = c.respBuf ∧ c.readView.st = c.st := by unfold Conn.readView; split <;> exact ⟨rfl, rfl⟩

theorem exec_respBuf (k : Nat) (i : Instr) (c : Conn) (h1 : ∀ s hs, i ≠ .writeHeaders s hs) (h2 : i ≠ .sendContent) : (exec k i c).1.respBuf = c.respBuf := by
  cases i with
  | writeHeaders s hs => exact absurd rfl (h1 s hs)
  | sendContent => exact absurd rfl h2
  | recvContent =>
    simp only [exec, recvContent_eq]
    split
    · rfl
    · have : ∀ f a, (recvTail f a).1.respBuf = f.respBuf := by
        intro f a
        unfold recvTail
        repeat' split
        all_goals first | rfl | exact (write_respBuf f _).1 | (dsimp only; split <;> first | exact (write_respBuf f _).1 | rfl)
      exact this _ _
  | writeContent ct =>
    simp only [exec, writeContent_eq]
    have : ∀ e : Conn, (contentTail ct e).1.respBuf = e.respBuf := by
      intro e
      unfold contentTail
      dsimp only
      split <;> split <;> exact (write_respBuf e _).1
    repeat' split
    all_goals first | rfl | exact (view_respBuf c).1 | exact (this _).trans (view_respBuf c).1
  | endContent =>
    simp only [exec, Conn.endContent]
    repeat' split
    all_goals first | rfl | exact (write_respBuf c _).1 | (dsimp only; split <;> first | exact (write_respBuf c _).1 | rfl)
  | errorResponse code =>
    simp only [exec, Conn.errorResponse]
    split
    · rfl
    · exact (write_respBuf c _).1
  | writeResponseRest ct =>
    simp only [exec, Conn.writeResponseRest]
    repeat' split
    all_goals first | rfl | exact (view_respBuf c).1
  | sendHeaders =>
    simp only [exec, Conn.sendHeaders]
    split
    · rfl
    · dsimp only [Conn.emit]
      split <;> rfl
  | processInput =>
    simp only [exec, Conn.processInput]
    repeat' split
    all_goals rfl
  | completedRest2 =>
    simp only [exec, Conn.completedRest2, Conn.toReceivingHeaders]
    split <;> rfl
  | _ =>
    simp only [exec, Conn.sendContentRest, Conn.complete, Conn.completedRest, Conn.flush, Conn.drain, Conn.drainRest, Conn.toFlushing, Conn.flushingRest, Conn.toClosed, Conn.closedRest, Conn.writeResponse]
    try (repeat' split)
    all_goals rfl

theorem headGone_reach {allowed : Conf → Label → Prop} {s : Conf} (h : Reach allowed s) : HeadGone s := by
  induction h with
  | start => exact .inr (.inl rfl)
  | step s s' l _ _ hs ih =>
    have hf : s.c.fault = none := by
      cases hfa : s.c.fault with
      | none => rfl
      | some f => simp [Conf.step, hfa] at hs
    have ih' : s.c.respBuf = [] ∨ (∃ rest, s.stack = .sendContent :: rest) ∧ s.c.st = .sendingHeaders := by
      rcases ih with h | h
      · rw [hf] at h; cases h
      · exact h
    have envEmpty : s.inEnv = true → s.c.respBuf = [] := by
      intro he
      rcases ih' with h | ⟨⟨rest, h⟩, -⟩
      · exact h
      · unfold Conf.inEnv at he; rw [h] at he; cases he
    cases l with
    | tau k =>
      obtain ⟨c, stack⟩ := s
      dsimp only at hf ih'
      simp only [Conf.step, hf, Option.isSome_none, Bool.false_eq_true, if_false] at hs
      cases stack with
      | nil => cases hs
      | cons i rest =>
        have hs' : some (⟨(exec k i c).1, (exec k i c).2 ++ rest⟩ : Conf) = some s' ∨ i = .env := by
          cases i <;> first | exact .inr rfl | exact .inl hs
        rcases hs' with hs' | rfl
        · injection hs' with hs'
          subst hs'
          by_cases h2 : i = .sendContent
          · subst h2
            rcases ih' with h | ⟨-, h⟩
            · refine .inr (.inl ?_)
              simp only [exec, Conn.sendContent]
              repeat' split
              all_goals first | exact h | rfl | exact (view_respBuf _).1
            · refine .inr (.inl ?_)
              have hne : ¬ c.st = .sendingContent := by rw [h]; simp
              simp only [exec, Conn.sendContent]
              rw [if_neg hne]
              repeat' split
              all_goals first | rfl | exact (view_respBuf _).1
          · have he : c.respBuf = [] := by
              rcases ih' with h | ⟨⟨r, h⟩, -⟩
              · exact h
              · injection h with h; exact absurd h h2
            by_cases h1 : ∃ s hs, i = .writeHeaders s hs
            · obtain ⟨a, hs, rfl⟩ := h1
              simp only [exec, Conn.writeHeaders]
              split
              · exact .inr (.inl he)
              · rename_i hst
                have hst : c.st = .sendingHeaders := by
                  by_cases q : c.st = .sendingHeaders
                  · exact q
                  · exact absurd q hst
                split
                · exact .inl rfl
                · refine .inr (.inr ⟨⟨rest, rfl⟩, ?_⟩)
                  exact ((write_respBuf _ _).2).trans ((view_respBuf c).2.trans hst)
            · refine .inr (.inl ?_)
              rw [← he]
              exact exec_respBuf k i c (fun a b e => h1 ⟨a, b, e⟩) h2
        · cases hs
    | ret =>
      obtain ⟨c, stack⟩ := s
      dsimp only at hf
      simp only [Conf.step, hf, Option.isSome_none, Bool.false_eq_true, if_false] at hs
      cases stack with
      | nil => cases hs
      | cons i rest =>
        cases i with
        | env => injection hs with hs; subst hs; exact .inr (.inl (envEmpty rfl))
        | _ => cases hs
    | _ =>
      simp only [Conf.step, hf, Option.isSome_none, Bool.false_eq_true, if_false] at hs
      split at hs
      · rename_i he
        have hb := envEmpty he
        first
        | (injection hs with hs; subst hs; exact .inr (.inl hb))
        | (split at hs
           · injection hs with hs; subst hs; exact .inr (.inl hb)
           · cases hs)
        | (injection hs with hs; subst hs
           refine .inr (.inl ?_)
           simp only [Conn.initialize, Conn.emit, Conn.toReceivingHeaders, Conn.requestParams, Conn.setRequestParam, Conn.readDecoded]
           repeat' split
           all_goals exact hb)
      · cases hs

/-! ### a used object after `initialize` -/

theorem related_init (pre : Conf) (hg : HeadGone pre) (hf : pre.c.fault = none) (hstack : pre.stack = []) (hne : ¬ pre.c.st = .receivingHeaders) :
    Related pre.c.log pre.c.staleRead pre.c pre.c.initialize (({} : Conn).initialize) [] := by
  have hb : pre.c.respBuf = [] := by
    rcases hg with h | h | ⟨⟨r, h⟩, -⟩
    · rw [hf] at h; cases h
    · exact h
    · rw [hstack] at h; cases h
  refine .inr ⟨⟨rfl, .inl rfl, by simp, by simp, by simp⟩, pre.c.hdrN, pre.c.hdrValid, ?_, fun h => by cases h⟩
  obtain ⟨c, stack⟩ := pre
  dsimp only at hb hf hne ⊢
  obtain ⟨⟩ := c
  dsimp only at hb hf hne
  subst hb hf
  simp [Conn.initialize, Conn.toReceivingHeaders, hne, early, Conn.emit]

end Pillow
