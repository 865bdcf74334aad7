import Verif.Lemmas.Footprint
import Verif.Lemmas.Head
import Verif.Lemmas.Response
import Verif.Props.Flow
import Verif.Spec.Serve
set_option linter.unusedSimpArgs false
set_option linter.unusedVariables false
/-!
# A handler that answers with `writeResponse` only
-/
namespace Pillow
open Spec

/-- The answer is being written, nothing of the content yet. -/
def Pend (f : ReqView → Answer) (c : Conn) (ct : Bytes) : Prop := (f c.req).content = ct ∧ c.respLen = ct.length ∧ c.sent = 0

/-- What is on top of the stack belongs to the answer. -/
def JTop (f : ReqView → Answer) (c : Conn) : List Instr → Prop
  | .writeResponse st hs ct :: _ => c.st ≠ .sendingContent ∧ (c.st = .sendingHeaders → f c.req = ⟨st, hs, ct⟩)
  | .writeHeaders st hs :: rest => c.st = .sendingHeaders ∧ ∃ ct rest', rest = .writeResponseRest ct :: rest' ∧ f c.req = ⟨st, hs, ct⟩ ∧
      c.respLen = ct.length ∧ c.sent = 0
  | .sendContent :: rest => c.st = .sendingHeaders ∧ ∃ ct rest', rest = .writeResponseRest ct :: rest' ∧ Pend f c ct
  | .sendContentRest :: rest => c.st = .sendingContent → ∃ ct rest', rest = .writeResponseRest ct :: rest' ∧ Pend f c ct
  | .writeResponseRest ct :: _ => c.st = .sendingContent → Pend f c ct
  | .writeContent ct :: _ => c.st = .sendingContent → Pend f c ct
  | .completed :: _ => True
  | .endContent :: _ => False
  | _ => c.st ≠ .sendingContent

theorem jtop_frames {f : ReqView → Answer} {c : Conn} {rest : List Instr} (hf : ∀ i ∈ rest, i.frame = true)
    (hst : c.st ≠ .sendingContent) : JTop f c rest := by
  cases rest with
  | nil => exact hst
  | cons i rest =>
    have := hf i (by simp)
    cases i <;> simp_all [Instr.frame, JTop]

/-- The event an instruction can cause. -/
def EvFrom (i : Instr) (c : Conn) : Ev → Prop
  | .head h => ∃ st hs, i = .writeHeaders st hs ∧ c.st = .sendingHeaders ∧
      buildHead c.respBuf c.http11 c.req c.respLen c.chunked st hs = some h
  | .body bs => i = .writeContent bs ∧ c.st = .sendingContent
  | .chunk bs => i = .writeContent bs ∧ c.st = .sendingContent ∧ c.chunked = true
  | .lastChunk => i = .endContent
  | .completed => i = .completed ∧ c.st ≠ .completed
  | .closed f _ => i = .closed f ∧ c.st ≠ .closed
  | _ => True

def LogStep (i : Instr) (c c' : Conn) : Prop := c'.log = c.log ∨ ∃ e, c'.log = c.log ++ [e] ∧ EvFrom i c e

theorem log_write (c : Conn) (e : Ev) : (c.write e).log = c.log ∨ (c.write e).log = c.log ++ [e] := by
  unfold Conn.write; split <;> simp
theorem log_readView (c : Conn) : c.readView.log = c.log := by unfold Conn.readView; split <;> rfl

theorem exec_log (k : Nat) (i : Instr) (c : Conn) : LogStep i c (exec k i c).1 := by
  cases i <;> simp only [exec]
  case env => exact .inl rfl
  case processInput =>
    left
    unfold Conn.processInput
    split
    · rfl
    · split
      · rfl
      · dsimp only
        repeat' split
        all_goals rfl
  case recvContent =>
    unfold Conn.recvContent
    split
    · exact .inl rfl
    · dsimp only
      split
      · exact .inl rfl
      · split
        · exact .inl rfl
        · split
          · split
            · rcases log_write ({ ({ c with st := .receivingContent } : Conn).setup with clen := (({ c with st := .receivingContent } : Conn).setup.announced (contentLengthIndex c.buf c.refs)).1 } : Conn) .interim with h | h
              · left; exact h
              · right; exact ⟨.interim, h, trivial⟩
            · exact .inl rfl
          · exact .inl rfl
  case sendHeaders =>
    unfold Conn.sendHeaders
    split
    · exact .inl rfl
    · right
      have e : (if c.hdrN ≠ c.refs.length then ({ c with st := .sendingHeaders } : Conn).setup else { c with st := .sendingHeaders }).log = c.log := by
        split <;> rfl
      exact ⟨_, congrArg (· ++ [_]) e, trivial⟩
  case completedRest =>
    unfold Conn.completedRest
    dsimp only
    split <;> exact .inl rfl
  case sendContent =>
    unfold Conn.sendContent
    split
    · exact .inl rfl
    · dsimp only
      split
      · exact .inl rfl
      · split <;> exact .inl (log_readView _)
  case sendContentRest =>
    unfold Conn.sendContentRest
    dsimp only
    split <;> exact .inl rfl
  case completed =>
    unfold Conn.complete
    split
    · exact .inl rfl
    · rename_i h; exact .inr ⟨.completed, rfl, rfl, h⟩
  case completedRest2 =>
    unfold Conn.completedRest2 Conn.toReceivingHeaders
    dsimp only
    split <;> exact .inl rfl
  case flush => unfold Conn.flush; split; exact .inl rfl; split <;> exact .inl rfl
  case drain => unfold Conn.drain; split <;> exact .inl rfl
  case drainRest => unfold Conn.drainRest; split; exact .inl rfl; split <;> exact .inl rfl
  case flushing => unfold Conn.toFlushing; split <;> exact .inl rfl
  case flushingRest => unfold Conn.flushingRest; split; split <;> exact .inl rfl; exact .inl rfl
  case closed f => unfold Conn.toClosed; split; exact .inl rfl; rename_i h; exact .inr ⟨.closed _ _, rfl, rfl, by simpa using h⟩
  case closedRest => exact .inl rfl
  case errorResponse code =>
    unfold Conn.errorResponse
    split
    · exact .inl rfl
    · rcases log_write c (.errorReply code) with h | h
      · exact .inl h
      · exact .inr ⟨_, h, trivial⟩
  case writeResponse st hs ct => unfold Conn.writeResponse; split <;> exact .inl rfl
  case writeResponseRest ct =>
    unfold Conn.writeResponseRest
    split
    · exact .inl rfl
    · dsimp only
      split <;> exact .inl (log_readView c)
  case writeHeaders st hs =>
    unfold Conn.writeHeaders
    split
    · exact .inl rfl
    · rename_i hst
      have hst : c.st = .sendingHeaders := by simpa using hst
      have e : c.readView.respBuf = c.respBuf ∧ c.readView.http11 = c.http11 ∧ c.readView.req = c.req ∧ c.readView.respLen = c.respLen ∧
          c.readView.chunked = c.chunked := by unfold Conn.readView; split <;> exact ⟨rfl, rfl, rfl, rfl, rfl⟩
      dsimp only
      split
      · exact .inl (log_readView c)
      · rename_i h hh
        rw [e.1, e.2.1, e.2.2.1, e.2.2.2.1, e.2.2.2.2] at hh
        rcases log_write { c.readView with status := st, respBuf := h.bytes, respLen := h.len, chunked := h.chunked, keepAlive := h.keepAlive } (.head h) with k | k
        · exact .inl (k.trans (log_readView c))
        · refine .inr ⟨.head h, ?_, st, hs, rfl, hst, hh⟩
          rw [k]; show c.readView.log ++ _ = _; rw [log_readView]
  case writeContent ct =>
    unfold Conn.writeContent
    split
    · exact .inl rfl
    · rename_i hst
      have hst : c.st = .sendingContent := by simpa using hst
      split
      · exact .inl rfl
      · split
        · exact .inl rfl
        · split
          · dsimp only
            have e : c.readView.chunked = c.chunked := by unfold Conn.readView; split <;> rfl
            split
            · exact .inl (log_readView c)
            · have key : ∀ e, EvFrom (.writeContent ct) c e → LogStep (.writeContent ct) c ({ c.readView with sent := c.readView.sent + ct.length }.write e) := by
                intro e he
                rcases log_write { c.readView with sent := c.readView.sent + ct.length } e with k | k
                · exact .inl (k.trans (log_readView c))
                · refine .inr ⟨e, ?_, he⟩
                  rw [k]; show c.readView.log ++ _ = _; rw [log_readView]
              by_cases hc : c.readView.chunked = true
              · rw [if_pos hc]
                have := key (.chunk ct) ⟨rfl, hst, e ▸ hc⟩
                split <;> exact this
              · rw [if_neg hc]
                have := key (.body ct) ⟨rfl, hst⟩
                split <;> exact this
          · exact .inl rfl
  case endContent =>
    unfold Conn.endContent
    split
    · exact .inl rfl
    · split
      · exact .inl rfl
      · dsimp only
        split
        · rcases log_write c .lastChunk with h | h
          · exact .inl h
          · exact .inr ⟨_, h, rfl⟩
        · exact .inl rfl


/-- Instructions that do not belong to an answer. -/
theorem jtop_plain {f : ReqView → Answer} {k : Nat} {i : Instr} {c : Conn} {rest : List Instr} (hf : ∀ j ∈ rest, j.frame = true)
    (h : c.st ≠ .sendingContent) (h1 : i ≠ .sendContent) (h2 : ∀ st hs ct, i ≠ .writeResponse st hs ct) (h3 : ∀ ct, i ≠ .writeResponseRest ct)
    (h4 : ∀ ct, i ≠ .writeContent ct) (h5 : i ≠ .endContent) (h6 : ∀ st hs, i ≠ .writeHeaders st hs) :
    JTop f (exec k i c).1 ((exec k i c).2 ++ rest) := by
  have hst : (exec k i c).1.st ≠ .sendingContent := by
    rcases exec_st k i c with e | ⟨_, e⟩ | ⟨_, e⟩ | ⟨e, _⟩ | ⟨_, e⟩ | ⟨_, e⟩ | ⟨_, e⟩ | ⟨_, e⟩
    · rw [e]; exact h
    · rw [e]; simp
    · rw [e]; simp
    · exact absurd e h1
    · rw [e]; simp
    · rw [e]; simp
    · rw [e]; simp
    · rw [e]; simp
  revert hst
  cases i <;> simp only [exec]
  case env => exact fun h' => jtop_frames hf h'
  case processInput =>
    unfold Conn.processInput
    dsimp only
    repeat' split
    all_goals (intro h'; first | exact jtop_frames hf h' | exact h')
  case recvContent =>
    unfold Conn.recvContent
    dsimp only
    split
    · exact fun h' => jtop_frames hf h'
    · split
      · exact fun h' => h'
      · split
        · exact fun h' => h'
        · split
          · exact fun h' => h'
          · exact fun h' => h'
  case sendHeaders =>
    unfold Conn.sendHeaders
    split
    · exact fun h' => jtop_frames hf h'
    · exact fun h' => h'
  case completedRest =>
    unfold Conn.completedRest
    dsimp only
    split
    · exact fun h' => h'
    · exact fun h' => h'
  case sendContent => exact absurd rfl h1
  case sendContentRest => exact fun h' => jtop_frames hf h'
  case completed =>
    unfold Conn.complete
    split
    · exact fun h' => jtop_frames hf h'
    · exact fun h' => h'
  case completedRest2 => exact fun h' => h'
  case flush =>
    unfold Conn.flush
    repeat' split
    all_goals (intro h'; first | exact jtop_frames hf h' | exact h')
  case drain =>
    unfold Conn.drain
    repeat' split
    all_goals (intro h'; first | exact jtop_frames hf h' | exact h')
  case drainRest =>
    unfold Conn.drainRest
    repeat' split
    all_goals (intro h'; first | exact jtop_frames hf h' | exact h')
  case flushing =>
    unfold Conn.toFlushing
    repeat' split
    all_goals (intro h'; first | exact jtop_frames hf h' | exact h')
  case flushingRest =>
    unfold Conn.flushingRest
    repeat' split
    all_goals (intro h'; first | exact jtop_frames hf h' | exact h')
  case closed f =>
    unfold Conn.toClosed
    repeat' split
    all_goals (intro h'; first | exact jtop_frames hf h' | exact h')
  case closedRest => exact fun h' => jtop_frames hf h'
  case errorResponse code =>
    unfold Conn.errorResponse
    repeat' split
    all_goals (intro h'; first | exact jtop_frames hf h' | exact h')
  case writeResponse st hs ct => exact absurd rfl (h2 _ _ _)
  case writeResponseRest ct => exact absurd rfl (h3 _)
  case writeHeaders st hs => exact absurd rfl (h6 _ _)
  case writeContent ct => exact absurd rfl (h4 _)
  case endContent => exact absurd rfl h5

theorem sane_len {f : ReqView → Answer} (hs : Sane f) (r : ReqView) : declaredLength (f r).content.length (f r).headers = (f r).content.length := by
  unfold declaredLength; rw [(hs r).1]

theorem jtop_exec {f : ReqView → Answer} (hsane : Sane f) {k : Nat} {i : Instr} {c : Conn} {rest : List Instr} (hc : Core false c (i :: rest))
    (hj : JTop f c (i :: rest)) (hf' : (exec k i c).1.fault = none) : JTop f (exec k i c).1 ((exec k i c).2 ++ rest) := by
  have hf : ∀ j ∈ rest, j.frame = true := hc.frames
  obtain ⟨ph, hruns, hd⟩ := hc.data
  cases i
  case writeResponse st hs ct =>
    obtain ⟨j1, j2⟩ := hj
    simp only [exec, Conn.writeResponse]
    split
    · exact jtop_frames hf j1
    · rename_i hst
      have hst : c.st = .sendingHeaders := by simpa using hst
      obtain ⟨-, -, -, -, -, -, hsent⟩ := (settled_sendH hst).1 hd
      exact ⟨hst, ct, rest, rfl, j2 hst, rfl, hsent⟩
  case writeHeaders st hs =>
    obtain ⟨hst, ct, rest', rfl, j1, j2, j3⟩ := hj
    revert hf'
    simp only [exec, Conn.writeHeaders]
    rw [if_neg (by simp [hst])]
    have e : c.readView.respBuf = c.respBuf ∧ c.readView.http11 = c.http11 ∧ c.readView.req = c.req ∧ c.readView.respLen = c.respLen ∧
        c.readView.chunked = c.chunked ∧ c.readView.st = c.st ∧ c.readView.sent = c.sent := by
      unfold Conn.readView; split <;> exact ⟨rfl, rfl, rfl, rfl, rfl, rfl, rfl⟩
    split
    · intro h; cases h
    · rename_i h hh
      intro _
      have hlen : h.len = ct.length := by
        rw [e.1, e.2.1, e.2.2.1, e.2.2.2.1, e.2.2.2.2.1, j2] at hh
        have hb : c.respBuf = [] := hc.resp (by simp)
        have hd' : c.http11 = (c.req.version == b!"HTTP/1.1") ∧ c.chunked = false := by
          rcases hd with hd | ⟨-, -, hd⟩
          · obtain ⟨-, -, a, b, -⟩ := (settled_sendH hst).1 hd; exact ⟨a, b⟩
          · obtain ⟨-, -, a, b, -⟩ := (settled_sendH (c := { c with respLen := -1 }) hst).1 hd; exact ⟨a, b⟩
        rw [hb, hd'.1, hd'.2] at hh
        have := (head_spec hh).len
        have hl := sane_len hsane c.req
        rw [j1] at hl
        rw [this]; exact hl
      have key : ∀ e', (({ c.readView with status := st, respBuf := h.bytes, respLen := h.len, chunked := h.chunked, keepAlive := h.keepAlive } : Conn).write e').st = c.st ∧
          (({ c.readView with status := st, respBuf := h.bytes, respLen := h.len, chunked := h.chunked, keepAlive := h.keepAlive } : Conn).write e').req = c.req ∧
          (({ c.readView with status := st, respBuf := h.bytes, respLen := h.len, chunked := h.chunked, keepAlive := h.keepAlive } : Conn).write e').respLen = h.len ∧
          (({ c.readView with status := st, respBuf := h.bytes, respLen := h.len, chunked := h.chunked, keepAlive := h.keepAlive } : Conn).write e').sent = c.sent := by
        intro e'
        unfold Conn.write
        split
        · exact ⟨e.2.2.2.2.2.1, e.2.2.1, rfl, e.2.2.2.2.2.2⟩
        · exact ⟨e.2.2.2.2.2.1, e.2.2.1, rfl, e.2.2.2.2.2.2⟩
      obtain ⟨k1, k2, k3, k4⟩ := key (.head h)
      refine ⟨k1.trans hst, ct, rest', rfl, ?_, k3.trans hlen, k4.trans j3⟩
      rw [k2, j1]
  case sendContent =>
    obtain ⟨hst, ct, rest', rfl, j1, j2, j3⟩ := hj
    simp only [exec, Conn.sendContent]
    rw [if_neg (by simp [hst])]
    split
    · exact trivial
    · split
      · exact trivial
      · have e : ∀ c' : Conn, c'.readView.req = c'.req ∧ c'.readView.respLen = c'.respLen ∧ c'.readView.sent = c'.sent := by
          intro c'; unfold Conn.readView; split <;> exact ⟨rfl, rfl, rfl⟩
        intro _
        refine ⟨ct, rest', rfl, ?_, ?_, ?_⟩
        · rw [(e _).1]; exact j1
        · rw [(e _).2.1]; exact j2
        · rw [(e _).2.2]; exact j3
  case sendContentRest =>
    simp only [exec, Conn.sendContentRest, List.nil_append]
    by_cases hst : c.st = .sendingContent
    · obtain ⟨ct, rest', rfl, j1, j2, j3⟩ := hj hst
      intro _
      have : ¬ (c.respLen < 0 ∧ c.chunked = false) := by rw [j2]; omega
      rw [if_neg this]
      exact ⟨j1, j2, j3⟩
    · refine jtop_frames hf ?_
      split <;> exact hst
  case writeResponseRest ct =>
    simp only [exec, Conn.writeResponseRest]
    by_cases hst : c.st = .sendingContent
    · obtain ⟨j1, j2, j3⟩ := hj hst
      obtain ⟨h, n, -, hr, -, h1, h2, -, h3⟩ := (settled_sendC hst).1 hd
      have hne : ct ≠ [] := by
        rintro rfl
        exact h1 (hr.len.symm.trans j2)
      rw [if_neg hne, readView_valid h3]
      have : c.isHead = false := by simpa [Conn.isHead] using h2
      rw [if_neg (by simp [this])]
      exact fun _ => ⟨j1, j2, j3⟩
    · have hst' : c.readView.st ≠ .sendingContent := by rw [st_readView]; exact hst
      split
      · exact jtop_frames hf hst
      · split
        · exact jtop_frames hf hst'
        · exact fun h => absurd h hst'
  case writeContent ct =>
    by_cases hst : c.st = .sendingContent
    · obtain ⟨j1, j2, j3⟩ := hj hst
      obtain ⟨h, n, -, hr, -, h1, h2, -, h3⟩ := (settled_sendC hst).1 hd
      have hne : ct ≠ [] := by
        rintro rfl
        exact h1 (hr.len.symm.trans j2)
      obtain ⟨d, hdev⟩ := Option.isSome_iff_exists.1 (hc.dev (by rw [hst]; simp) (by rw [hst]; simp))
      simp only [exec]
      rw [Props.writeContent_writes (c := c) (ct := ct) hst (by rw [hr.len]; exact h1) (by rw [j2, j3]; omega) hne h3 h2 hdev]
      have hfin : ((c.sent + ct.length : Nat) : Int) = c.respLen := by rw [j2, j3]; omega
      rw [if_pos hfin]
      exact trivial
    · simp only [exec, Conn.writeContent]
      rw [if_pos (by simpa using hst)]
      exact jtop_frames hf hst
  case endContent => exact hj.elim
  case completed =>
    have hst : (exec k .completed c).1.st = .completed := by
      simp only [exec, Conn.complete]; split
      · assumption
      · rfl
    revert hst
    simp only [exec, Conn.complete]
    split
    · intro h; exact jtop_frames hf (by rw [h]; simp)
    · intro h; show _ ≠ _; rw [h]; simp
  all_goals exact jtop_plain hf hj (by simp) (by simp) (by simp) (by simp) (by simp) (by simp)

/-! ### the log -/

/-- The events of an answer. -/
def EvOk (f : ReqView → Answer) (p : Phase) : Ev → Prop
  | .head h => ∀ r, p = .busy r → HeadFor f r h
  | .body bs => ∀ r h n, p = .sending r h n → bs = (f r).content
  | .chunk _ => False
  | .lastChunk => False
  | _ => True

theorem evOk_exec {f : ReqView → Answer} (hsane : Sane f) {i : Instr} {c : Conn} {rest : List Instr} {ph : Phase} {e : Ev} (hc : Core false c (i :: rest))
    (hj : JTop f c (i :: rest)) (hr : Runs false c.log ph) (he : EvFrom i c e) : EvOk f ph e := by
  obtain ⟨ph', hr', hd⟩ := hc.data
  cases runs_det hr hr'
  cases e with
  | head h =>
    intro r hp
    obtain ⟨st, hs, rfl, hst, hh⟩ := he
    obtain ⟨-, ct, rest', rfl, j1, j2, j3⟩ := hj
    have hb : c.respBuf = [] := hc.resp (by simp)
    have hd' : ph = .busy c.req ∧ c.http11 = (c.req.version == b!"HTTP/1.1") ∧ c.chunked = false := by
      rcases hd with hd | ⟨-, -, hd⟩
      · obtain ⟨x, -, a, b, -⟩ := (settled_sendH hst).1 hd; exact ⟨x, a, b⟩
      · obtain ⟨x, -, a, b, -⟩ := (settled_sendH (c := { c with respLen := -1 }) hst).1 hd; exact ⟨x, a, b⟩
    obtain ⟨x, a, b⟩ := hd'
    rw [x] at hp
    cases hp
    rw [hb, a, b, j2] at hh
    unfold HeadFor
    rw [j1]
    exact hh
  | body bs =>
    intro r h n hp
    obtain ⟨rfl, hst⟩ := he
    obtain ⟨h', n', x, -⟩ := (settled_sendC hst).1 hd
    rw [x] at hp
    cases hp
    exact (hj hst).1.symm
  | chunk bs =>
    obtain ⟨rfl, hst, hch⟩ := he
    obtain ⟨h', n', x, hr, -⟩ := (settled_sendC hst).1 hd
    have := hr.chunkLen (hr.chunked.symm.trans hch)
    have h2 := (hj hst).2.1
    rw [hr.len] at h2
    omega
  | lastChunk =>
    cases he
    exact hj.elim
  | _ => exact trivial

/-- Error replies. -/
def isError : Ev → Bool
  | .errorReply _ => true
  | _ => false

def isClosedEv : Ev → Bool
  | .closed _ _ => true
  | _ => false

def clean (l : List Ev) : Prop := (∀ e ∈ l, isClosedEv e = false) ∧ ∀ e ∈ l, isError e = false

/-- What has been written so far. -/
def Wrote (f : ReqView → Answer) (l : List Ev) : Phase → Prop
  | .off => ∀ e ∈ l, isClosedEv e = false
  | .recv i => clean l ∧ (∀ r ∈ readys l, Keeps f r) ∧ wireOf l = replies f (readys l) ++ (if i then continueBytes else [])
  | .busy r => clean l ∧ ∃ pre, readys l = pre ++ [r] ∧ (∀ r ∈ pre, Keeps f r) ∧ wireOf l = replies f pre ++ interimFor r
  | .sending r h n => clean l ∧ n = 0 ∧ HeadFor f r h ∧ r.method ≠ b!"HEAD" ∧ ∃ pre, readys l = pre ++ [r] ∧ (∀ r ∈ pre, Keeps f r) ∧
      wireOf l = replies f pre ++ interimFor r ++ h.bytes
  | .ended r h => clean l ∧ HeadFor f r h ∧ ∃ pre, readys l = pre ++ [r] ∧ (∀ r ∈ pre, Keeps f r) ∧ wireOf l = replies f (readys l)
  | .flushing => (∀ e ∈ l, isClosedEv e = false) ∧ Final f l
  | .closed => ((∃ u, .closed true u ∈ l) ∧ ∀ u, .closed false u ∉ l) ∨ Final f l


theorem clean_snoc {l : List Ev} {e : Ev} (h : clean l) (h1 : isClosedEv e = false) (h2 : isError e = false) : clean (l ++ [e]) := by
  constructor
  · intro x hx; rcases List.mem_append.1 hx with hx | hx
    · exact h.1 x hx
    · simp at hx; subst hx; exact h1
  · intro x hx; rcases List.mem_append.1 hx with hx | hx
    · exact h.2 x hx
    · simp at hx; subst hx; exact h2

theorem clean_noError {l : List Ev} (h : clean l) (code : Int) : .errorReply code ∉ l := fun hm => by
  have := h.2 _ hm; simp [isError] at this

theorem replies_snoc (f : ReqView → Answer) (rs : List ReqView) (r : ReqView) :
    replies f (rs ++ [r]) = replies f rs ++ (interimFor r ++ answerBytes f r) := by simp [replies]

theorem headFor_facts {f : ReqView → Answer} (hs : Sane f) {r : ReqView} {h : RespHead} (hh : HeadFor f r h) :
    h.len = (f r).content.length ∧ (h.keepAlive = true ↔ Keeps f r) ∧
    answerBytes f r = h.bytes ++ (if r.method = b!"HEAD" then [] else (f r).content) := by
  have sp := head_spec hh
  have hl : h.len = (f r).content.length := by rw [sp.len]; exact sane_len hs r
  refine ⟨hl, ?_, ?_⟩
  · rw [sp.keepAlive]
    unfold Keeps
    have : (0 ≤ h.len ∨ h.chunked = true) := .inl (by omega)
    simp [this]
  · unfold answerBytes
    unfold HeadFor at hh
    rw [hh]; rfl

theorem final_neutral {f : ReqView → Answer} {l : List Ev} {e : Ev} (h : Final f l) (h1 : Ev.request e = none) (h2 : e.wire = [])
    (h3 : isError e = false) : Final f (l ++ [e]) := by
  have k1 : readys (l ++ [e]) = readys l := by rw [readys_snoc, h1]; simp
  have k2 : wireOf (l ++ [e]) = wireOf l := by rw [wireOf_snoc, h2]; simp
  rcases h with ⟨code, a, b, c⟩ | ⟨a, b⟩
  · exact .inl ⟨code, List.mem_append_left _ a, by rw [k1]; exact b, by rw [k1, k2]; exact c⟩
  · refine .inr ⟨fun code hm => ?_, by rw [k1, k2]; exact b⟩
    rcases List.mem_append.1 hm with hm | hm
    · exact a code hm
    · simp at hm; subst hm; simp [isError] at h3

theorem wrote_next {f : ReqView → Answer} (hs : Sane f) {l : List Ev} {p q : Phase} {e : Ev} (hn : Next false p e q) (hw : Wrote f l p)
    (he : EvOk f p e) : Wrote f (if e = .init then [] else l ++ [e]) q := by
  cases hn with
  | init p hp => rw [if_pos rfl]; exact ⟨⟨by simp, by simp⟩, by simp [readys], by simp [wireOf, replies, readys]⟩
  | recv p bs =>
    rw [if_neg (by simp)]
    have k1 : readys (l ++ [.recv bs]) = readys l := by rw [readys_snoc]; simp [Ev.request]
    have k2 : wireOf (l ++ [.recv bs]) = wireOf l := by rw [wireOf_snoc]; simp [Ev.wire]
    have kc : clean l → clean (l ++ [.recv bs]) := fun h => clean_snoc h rfl rfl
    cases p with
    | off =>
      intro x hx
      rcases List.mem_append.1 hx with hx | hx
      · exact hw x hx
      · simp at hx; subst hx; rfl
    | recv i => obtain ⟨a, b⟩ := hw; exact ⟨kc a, by rw [k1, k2]; exact b⟩
    | busy r => obtain ⟨a, b⟩ := hw; exact ⟨kc a, by rw [k1, k2]; exact b⟩
    | sending r h n => obtain ⟨a, b⟩ := hw; exact ⟨kc a, by rw [k1, k2]; exact b⟩
    | ended r h => obtain ⟨a, b⟩ := hw; exact ⟨kc a, by rw [k1, k2]; exact b⟩
    | flushing =>
      obtain ⟨a, b⟩ := hw
      refine ⟨fun x hx => ?_, final_neutral b rfl rfl rfl⟩
      rcases List.mem_append.1 hx with hx | hx
      · exact a x hx
      · simp at hx; subst hx; rfl
    | closed =>
      rcases hw with ⟨⟨u, a⟩, b⟩ | hw
      · exact .inl ⟨⟨u, List.mem_append_left _ a⟩, fun u hm => by
          rcases List.mem_append.1 hm with hm | hm
          · exact b u hm
          · simp at hm⟩
      · exact .inr (final_neutral hw rfl rfl rfl)
  | interim =>
    rw [if_neg (by simp)]
    obtain ⟨a, b, c⟩ := hw
    refine ⟨clean_snoc a rfl rfl, ?_, ?_⟩
    · rw [readys_snoc]; simpa [Ev.request] using b
    · rw [readys_snoc, wireOf_snoc, c]; simp [Ev.request, Ev.wire]
  | ready i r hi =>
    rw [if_neg (by simp)]
    obtain ⟨a, b, c⟩ := hw
    refine ⟨clean_snoc a rfl rfl, readys l, by rw [readys_snoc]; rfl, b, ?_⟩
    rw [wireOf_snoc, c]
    have : interimFor r = (if i then continueBytes else []) := by
      unfold interimFor
      by_cases h : WantsContinue r
      · have h' := h; unfold WantsContinue at h'; rw [if_pos h', if_pos (hi.2 h)]
      · have h' := h; unfold WantsContinue at h'; rw [if_neg h', if_neg (fun k => h (hi.1 k))]
    rw [this]
    simp [Ev.wire]
  | error code =>
    rw [if_neg (by simp)]
    obtain ⟨a, b, c⟩ := hw
    refine ⟨fun x hx => ?_, .inl ⟨code, by simp, ?_, ?_⟩⟩
    · rcases List.mem_append.1 hx with hx | hx
      · exact a.1 x hx
      · simp at hx; subst hx; rfl
    · rw [readys_snoc]; simpa [Ev.request] using b
    · rw [readys_snoc, wireOf_snoc, c]; simp [Ev.request, Ev.wire]
  | head r h hh =>
    rw [if_neg (by simp)]
    obtain ⟨a, pre, b, c, d⟩ := hw
    have hf := he r rfl
    obtain ⟨f1, f2, f3⟩ := headFor_facts hs hf
    have k1 : readys (l ++ [.head h]) = pre ++ [r] := by rw [readys_snoc, b]; simp [Ev.request]
    have k2 : wireOf (l ++ [.head h]) = replies f pre ++ interimFor r ++ h.bytes := by rw [wireOf_snoc, d]; rfl
    split
    · rename_i hz
      refine ⟨clean_snoc a rfl rfl, hf, pre, k1, c, ?_⟩
      rw [k1, k2, replies_snoc, f3]
      have : (if r.method = b!"HEAD" then [] else (f r).content) = [] := by
        split
        · rfl
        · rename_i hm
          rcases hz with hz | hz
          · rw [f1] at hz; simpa using hz
          · exact absurd hz hm
      rw [this]; simp
    · rename_i hz
      exact ⟨clean_snoc a rfl rfl, rfl, hf, fun hm => hz (.inr hm), pre, k1, c, k2⟩
  | body r h n bs h1 h2 h3 h4 h5 =>
    rw [if_neg (by simp)]
    obtain ⟨a, rfl, b, c, pre, d, e, g⟩ := hw
    have hb := he r h 0 rfl
    obtain ⟨f1, f2, f3⟩ := headFor_facts hs b
    rw [if_pos (by rw [hb, f1]; simp)]
    have k1 : readys (l ++ [.body bs]) = pre ++ [r] := by rw [readys_snoc, d]; simp [Ev.request]
    refine ⟨clean_snoc a rfl rfl, b, pre, k1, e, ?_⟩
    rw [k1, replies_snoc, f3, if_neg c, wireOf_snoc, g, ← hb]
    simp [Ev.wire]
  | chunk r h n bs _ _ _ _ => exact he.elim
  | lastChunk r h n _ _ => exact he.elim
  | completed r h =>
    rw [if_neg (by simp)]
    obtain ⟨a, b, pre, c, d, e⟩ := hw
    obtain ⟨f1, f2, f3⟩ := headFor_facts hs b
    have k1 : readys (l ++ [.completed]) = readys l := by rw [readys_snoc]; simp [Ev.request]
    have k2 : wireOf (l ++ [.completed]) = wireOf l := by rw [wireOf_snoc]; simp [Ev.wire]
    have kc : clean (l ++ [.completed]) := clean_snoc a rfl rfl
    unfold Phase.after
    split
    · rename_i hk
      refine ⟨kc, ?_, by rw [k1, k2, e]; simp⟩
      rw [k1, c]
      intro x hx
      rcases List.mem_append.1 hx with hx | hx
      · exact d x hx
      · simp at hx; subst hx; exact f2.1 hk
    · rename_i hk
      exact ⟨kc.1, .inr ⟨clean_noError kc, pre, r, by rw [k1, c], d, fun h => hk (f2.2 h), by rw [k1, k2, e]⟩⟩
  | completedOpen r h n h1 h2 h3 =>
    obtain ⟨a, rfl, b, c, -⟩ := hw
    have := (headFor_facts hs b).1
    omega
  | forced p u h1 h2 =>
    rw [if_neg (by simp)]
    left
    refine ⟨⟨u, by simp⟩, fun u' hm => ?_⟩
    have hm : .closed false u' ∈ l := by simpa using hm
    cases p with
    | off => have := hw _ hm; cases this
    | recv i => have := hw.1.1 _ hm; cases this
    | busy r => have := hw.1.1 _ hm; cases this
    | sending r h n => have := hw.1.1 _ hm; cases this
    | ended r h => exact h2 _ _ rfl
    | flushing => have := hw.1 _ hm; cases this
    | closed => exact h1 rfl
  | drained =>
    rw [if_neg (by simp)]
    exact .inr (final_neutral hw.2 rfl rfl rfl)
  | again h => cases h


structure SInv (f : ReqView → Answer) (s : Conf) : Prop where
  top : s.c.fault = none → JTop f s.c s.stack
  wrote : ∃ ph, Runs false s.c.log ph ∧ Wrote f (epoch s.c.log) ph

theorem wrote_step {f : ReqView → Answer} (hs : Sane f) {log : List Ev} {e : Ev} {ph q : Phase} (hr : Runs false log ph)
    (hr' : Runs false (log ++ [e]) q) (hw : Wrote f (epoch log) ph) (he : EvOk f ph e) : Wrote f (epoch (log ++ [e])) q := by
  obtain ⟨p, h1, h2⟩ := runs_split hr'
  cases runs_det hr h1
  cases h2 with
  | cons _ _ _ _ _ hn h3 =>
    cases h3
    rw [epoch_snoc]
    exact wrote_next hs hn hw he

theorem inv_runs {s : Conf} (h : Reach Gentle s) : ∃ ph, Runs false s.c.log ph := by
  rcases inv_reach (lo := false) h with hc | ⟨-, -, hc⟩
  · obtain ⟨ph, h, -⟩ := hc.data; exact ⟨ph, h⟩
  · exact hc

/-- The top of the stack while foreign code is in control. -/
theorem jtop_env {f : ReqView → Answer} {s : Conf} (he : s.inEnv = true) (h : JTop f s.c s.stack) : s.c.st ≠ .sendingContent := by
  rcases (inEnv_iff s).1 he with e | ⟨rest, e⟩ <;> rw [e] at h <;> exact h

theorem sinv_step {f : ReqView → Answer} (hsane : Sane f) {s s' : Conf} {l : Label} (hr : Reach Gentle s) (hi : SInv f s) (ha : Serves f s l)
    (hs : s.step l = some s') : SInv f s' := by
  have hr' : Reach Gentle s' := .step s s' l hr ha.1 hs
  obtain ⟨q, hq⟩ := inv_runs hr'
  obtain ⟨ph, hp, hw⟩ := hi.wrote
  have hf : s.c.fault = none := by
    cases hf : s.c.fault with
    | none => rfl
    | some x => unfold Conf.step at hs; rw [hf] at hs; cases hs
  have hj := hi.top hf
  have hc : Core false s.c s.stack := by
    rcases inv_reach (lo := false) hr with hc | ⟨hc, -⟩
    · exact hc
    · rw [hf] at hc; cases hc
  -- steps of the environment that leave the log, the state and the answer alone
  have quiet : ∀ c' stack', s' = ⟨c', stack'⟩ → c'.log = s.c.log → JTop f c' stack' → SInv f s' := by
    rintro c' stack' rfl e j
    exact ⟨fun _ => j, ph, by rw [show (Conf.mk c' stack').c.log = s.c.log from e]; exact hp, by rw [show (Conf.mk c' stack').c.log = s.c.log from e]; exact hw⟩
  unfold Conf.step at hs
  rw [hf] at hs
  simp only [Option.isSome_none, Bool.false_eq_true, ↓reduceIte] at hs
  cases l with
  | tau k =>
    simp only at hs
    split at hs
    · cases hs
    · cases hs
    · rename_i i rest hne heq
      simp only [Option.some.injEq] at hs
      rw [heq] at hc hj
      refine ⟨fun hf' => ?_, ?_⟩
      · subst hs; exact jtop_exec hsane hc hj hf'
      · rcases exec_log k i s.c with e | ⟨e, h1, h2⟩
        · refine ⟨ph, ?_, ?_⟩
          · subst hs; show Runs false (exec k i s.c).1.log ph; rw [e]; exact hp
          · subst hs; show Wrote f (epoch (exec k i s.c).1.log) ph; rw [e]; exact hw
        · have e1 : s'.c.log = s.c.log ++ [e] := by subst hs; exact h1
          rw [e1] at hq ⊢
          exact ⟨q, hq, wrote_step hsane hp hq hw (evOk_exec hsane hc hj hp h2)⟩
  | call a =>
    simp only at hs
    split at hs
    · rename_i he
      simp only [Option.some.injEq] at hs
      have hst := jtop_env he hj
      refine quiet s.c (a.instr :: s.stack) hs.symm rfl ?_
      cases a with
      | writeResponse st hs ct => exact ⟨hst, ha.2⟩
      | writeHeaders st hs => exact ha.2.elim
      | writeContent ct => exact ha.2.elim
      | endContent => exact ha.2.elim
      | _ => exact hst
    · cases hs
  | ret =>
    simp only at hs
    split at hs
    · rename_i rest heq
      simp only [Option.some.injEq] at hs
      have hst : s.c.st ≠ .sendingContent := by rw [heq] at hj; exact hj
      exact quiet s.c rest hs.symm rfl (jtop_frames (by have := hc.frames; rw [heq] at this; exact this) hst)
    · cases hs
  | recv bs =>
    simp only at hs
    split at hs
    · rename_i he
      split at hs
      · rename_i d hd
        simp only [Option.some.injEq] at hs
        have hst := jtop_env he hj
        have e1 : s'.c.log = s.c.log ++ [.recv bs] := by subst hs; rfl
        refine ⟨fun _ => ?_, ?_⟩
        · subst hs
          exact jtop_frames (inEnv_frames (s := s) he hc) hst
        · rw [e1] at hq ⊢
          exact ⟨q, hq, wrote_step hsane hp hq hw trivial⟩
      · cases hs
    · cases hs
  | bytesWritten k =>
    simp only at hs
    split at hs
    · rename_i he
      split at hs
      · rename_i d hd
        simp only [Option.some.injEq] at hs
        have hst := jtop_env he hj
        refine quiet _ _ hs.symm rfl ?_
        split
        · exact hst
        · exact jtop_frames (inEnv_frames (s := s) he hc) hst
      · cases hs
    · cases hs
  | init =>
    simp only at hs
    split at hs
    · rename_i he
      simp only [Option.some.injEq] at hs
      have e1 : s'.c.log = s.c.log ++ [.init] := by
        subst hs
        show s.c.initialize.log = _
        unfold Conn.initialize Conn.toReceivingHeaders Conn.emit
        dsimp only
        split <;> rfl
      refine ⟨fun _ => ?_, ?_⟩
      · subst hs
        refine jtop_frames (inEnv_frames (s := s) he hc) ?_
        show s.c.initialize.st ≠ _
        unfold Conn.initialize Conn.toReceivingHeaders Conn.emit
        dsimp only
        split
        · rename_i h; simp_all
        · simp
      · rw [e1] at hq ⊢
        exact ⟨q, hq, wrote_step hsane hp hq hw trivial⟩
    · cases hs
  | readParams =>
    simp only at hs
    split at hs
    · rename_i he
      simp only [Option.some.injEq] at hs
      have hst := jtop_env he hj
      refine quiet _ _ hs.symm ?_ (jtop_frames (inEnv_frames (s := s) he hc) ?_)
      · unfold Conn.requestParams; split <;> rfl
      · unfold Conn.requestParams; split <;> exact hst
    · cases hs
  | setParam n v =>
    simp only at hs
    split at hs
    · rename_i he
      simp only [Option.some.injEq] at hs
      have hst := jtop_env he hj
      refine quiet _ _ hs.symm ?_ (jtop_frames (inEnv_frames (s := s) he hc) ?_)
      · unfold Conn.setRequestParam Conn.requestParams; split <;> rfl
      · unfold Conn.setRequestParam Conn.requestParams; split <;> exact hst
    · cases hs
  | readDecoded x =>
    simp only at hs
    split at hs
    · rename_i he
      simp only [Option.some.injEq] at hs
      have hst := jtop_env he hj
      refine quiet _ _ hs.symm ?_ (jtop_frames (inEnv_frames (s := s) he hc) ?_)
      · unfold Conn.readDecoded; cases x <;> simp only <;> split <;> rfl
      · unfold Conn.readDecoded; cases x <;> simp only <;> split <;> exact hst
    · cases hs

theorem serves_gentle {f : ReqView → Answer} {s : Conf} (h : Reach (Serves f) s) : Reach Gentle s := by
  induction h with
  | start => exact .start
  | step s s' l _ ha hs ih => exact .step s s' l ih ha.1 hs

theorem sinv_reach {f : ReqView → Answer} (hsane : Sane f) {s : Conf} (h : Reach (Serves f) s) : SInv f s := by
  induction h with
  | start => exact ⟨fun _ => by show CState.uninitialized ≠ .sendingContent; simp, .off, .start, by simp [Wrote, epoch]⟩
  | step s s' l hr ha hs ih => exact sinv_step hsane (serves_gentle hr) ih ha hs

end Pillow
