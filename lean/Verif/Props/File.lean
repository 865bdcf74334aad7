import Verif.Spec.File
import Verif.Props.Flow
import Verif.Props.Helpers
import Verif.Lemmas.QtNumber
import Verif.Model.HttpHandler
set_option linter.unusedSimpArgs false
set_option linter.unusedVariables false
/-!
# C32, C33: the file handler
-/
namespace Pillow.Props
open Pillow Pillow.Spec

/-! ### C33 -/

def NoContent (es : List Ev) : Prop := ∀ e ∈ es, (∀ bs, e ≠ .body bs) ∧ ∀ bs, e ≠ .chunk bs

/-- What one instruction of the connection does, if it does not write content. -/
structure QuietOut (c : Conn) (o : Out) : Prop where
  stack : NoWrites o.2
  log : ∃ es, o.1.log = c.log ++ es ∧ NoContent es

theorem quiet_nil : NoWrites [] := by intro i hi; cases hi
theorem quiet_cons {i : Instr} {l : List Instr} : NoWrites (i :: l) ↔
    ((∀ ct, i ≠ .writeContent ct) ∧ (∀ ct, i ≠ .writeResponseRest ct) ∧ (∀ st hs ct, i ≠ .writeResponse st hs ct)) ∧ NoWrites l := by
  simp [NoWrites]
theorem quiet_append {a b : List Instr} : NoWrites (a ++ b) ↔ NoWrites a ∧ NoWrites b := by
  simp only [NoWrites, List.mem_append]
  constructor
  · intro h; exact ⟨fun i hi => h i (.inl hi), fun i hi => h i (.inr hi)⟩
  · rintro ⟨h1, h2⟩ i (hi | hi)
    · exact h1 i hi
    · exact h2 i hi

theorem quietOut_same {c c' : Conn} {l : List Instr} (h : c'.log = c.log) (hl : NoWrites l) : QuietOut c (c', l) :=
  ⟨hl, [], by simpa using h, by intro e he; cases he⟩
theorem quietOut_one {c c' : Conn} {l : List Instr} {e : Ev} (h : c'.log = c.log ++ [e]) (hl : NoWrites l) (he : (∀ bs, e ≠ .body bs) ∧ ∀ bs, e ≠ .chunk bs) :
    QuietOut c (c', l) := ⟨hl, [e], h, by intro e' he'; cases List.mem_singleton.1 he'; exact he⟩

theorem write_log (c : Conn) (e : Ev) : (c.write e).log = c.log ∨ (c.write e).log = c.log ++ [e] := by
  unfold Conn.write; split
  · exact .inl rfl
  · exact .inr rfl

theorem exec_quiet (k : Nat) (i : Instr) (c : Conn) (hi : (∀ ct, i ≠ .writeContent ct) ∧ (∀ ct, i ≠ .writeResponseRest ct) ∧ (∀ st hs ct, i ≠ .writeResponse st hs ct)) :
    QuietOut c (exec k i c) := by
  cases i with
  | writeContent ct => exact absurd rfl (hi.1 ct)
  | writeResponseRest ct => exact absurd rfl (hi.2.1 ct)
  | writeResponse st hs ct => exact absurd rfl (hi.2.2 st hs ct)
  | env => exact quietOut_same rfl (by simp [NoWrites])
  | processInput =>
    simp only [exec, Conn.processInput]
    repeat' split
    all_goals exact quietOut_same (by simp [Conn.fill, Conn.parse]) (by simp [NoWrites])
  | recvContent =>
    simp only [exec, Conn.recvContent]
    split
    · exact quietOut_same rfl (by simp [NoWrites])
    split
    · exact quietOut_same (by simp [Conn.setup]) (by simp [NoWrites])
    split
    · exact quietOut_same (by simp [Conn.setup]) (by simp [NoWrites])
    split
    · split
      · generalize hc2 : ({ ({ c with st := CState.receivingContent } : Conn).setup with clen := _ } : Conn) = c2
        have hl : c2.log = c.log := by rw [← hc2]; simp [Conn.setup]
        rcases write_log c2 .interim with h | h
        · exact quietOut_same (by dsimp only; rw [h, hl]) (by simp [NoWrites])
        · exact quietOut_one (by dsimp only; rw [h, hl]) (by simp [NoWrites]) (by simp)
      · exact quietOut_same (by simp [Conn.setup]) (by simp [NoWrites])
    · exact quietOut_same (by simp [Conn.setup]) (by simp [NoWrites])
  | sendHeaders =>
    simp only [exec, Conn.sendHeaders]
    split
    · exact quietOut_same rfl (by simp [NoWrites])
    · have key : ∀ (c2 : Conn) (r : ReqView), c2.log = c.log → QuietOut c (c2.emit (.ready r), [.env]) := fun c2 r h2 =>
        quietOut_one (e := .ready r) (by simp [Conn.emit, h2]) (by simp [NoWrites]) (by simp)
      apply key
      split <;> rfl
  | sendContent =>
    simp only [exec, Conn.sendContent]
    split
    · exact quietOut_same rfl (by simp [NoWrites])
    split
    · exact quietOut_same rfl (by simp [NoWrites])
    · split
      · exact quietOut_same (by simp only [Conn.readView]; split <;> rfl) (by simp [NoWrites])
      · exact quietOut_same (by simp only [Conn.readView]; split <;> rfl) (by simp [NoWrites])
  | sendContentRest =>
    simp only [exec, Conn.sendContentRest]
    exact quietOut_same (by split <;> rfl) (by simp [NoWrites])
  | completed =>
    simp only [exec, Conn.complete]
    split
    · exact quietOut_same rfl (by simp [NoWrites])
    · exact quietOut_one rfl (by simp [NoWrites]) (by simp)
  | completedRest =>
    simp only [exec, Conn.completedRest]
    split <;> exact quietOut_same rfl (by simp [NoWrites])
  | completedRest2 =>
    simp only [exec, Conn.completedRest2]
    exact quietOut_same (by simp only [Conn.toReceivingHeaders]; split <;> rfl) (by simp [NoWrites])
  | flush =>
    simp only [exec, Conn.flush]
    repeat' split
    all_goals exact quietOut_same rfl (by simp [NoWrites])
  | drain =>
    simp only [exec, Conn.drain]
    split <;> exact quietOut_same rfl (by simp [NoWrites])
  | drainRest =>
    simp only [exec, Conn.drainRest]
    repeat' split
    all_goals exact quietOut_same rfl (by simp [NoWrites])
  | flushing =>
    simp only [exec, Conn.toFlushing]
    split <;> exact quietOut_same rfl (by simp [NoWrites])
  | flushingRest =>
    simp only [exec, Conn.flushingRest]
    repeat' split
    all_goals exact quietOut_same rfl (by simp [NoWrites])
  | closed forced =>
    simp only [exec, Conn.toClosed]
    split
    · exact quietOut_same rfl (by simp [NoWrites])
    · exact quietOut_one rfl (by simp [NoWrites]) (by simp)
  | closedRest => exact quietOut_same rfl (by simp [NoWrites])
  | errorResponse code =>
    simp only [exec, Conn.errorResponse]
    split
    · exact quietOut_same rfl (by simp [NoWrites])
    · rcases write_log c (.errorReply code) with h | h
      · exact quietOut_same h (by simp [NoWrites])
      · exact quietOut_one h (by simp [NoWrites]) (by simp)
  | writeHeaders st hs =>
    simp only [exec, Conn.writeHeaders]
    split
    · exact quietOut_same rfl (by simp [NoWrites])
    · split
      · exact quietOut_same (by simp only [Conn.readView]; split <;> rfl) (by simp [NoWrites])
      · rename_i h _
        generalize hc2 : ({ c.readView with status := st, respBuf := h.bytes, respLen := h.len, chunked := h.chunked, keepAlive := h.keepAlive } : Conn) = c2
        have hl : c2.log = c.log := by rw [← hc2]; simp only [Conn.readView]; split <;> rfl
        rcases write_log c2 (.head h) with h' | h'
        · exact quietOut_same (by rw [h', hl]) (by simp [NoWrites])
        · exact quietOut_one (by rw [h', hl]) (by simp [NoWrites]) (by simp)
  | endContent =>
    simp only [exec, Conn.endContent]
    split
    · exact quietOut_same rfl (by simp [NoWrites])
    split
    · exact quietOut_same rfl (by simp [NoWrites])
    · split
      · rcases write_log c .lastChunk with h | h
        · exact quietOut_same h (by simp [NoWrites])
        · exact quietOut_one h (by simp [NoWrites]) (by simp)
      · exact quietOut_same rfl (by simp [NoWrites])

theorem step_quiet {s s' : Conf} {l : Label} (hq : NoWrites s.stack) (hw : ∀ c, l = .call c → ¬ Writes c) (h : s.step l = some s') :
    NoWrites s'.stack ∧ ∃ es, s'.c.log = s.c.log ++ es ∧ NoContent es := by
  have hnone : NoContent [] := by intro e he; cases he
  unfold Conf.step at h
  split at h
  · cases h
  cases l with
  | tau k =>
    dsimp only at h
    split at h
    · cases h
    · cases h
    · rename_i i rest _ e
      cases h
      rw [e, quiet_cons] at hq
      obtain ⟨h1, h2⟩ := exec_quiet k i s.c hq.1
      exact ⟨quiet_append.2 ⟨h1, hq.2⟩, h2⟩
  | call a =>
    dsimp only at h
    split at h <;> cases h
    have ha := hw a rfl
    refine ⟨quiet_cons.2 ⟨?_, hq⟩, [], by simp, hnone⟩
    cases a <;> simp [Writes] at ha <;> simp [Call.instr]
  | ret =>
    dsimp only at h
    split at h
    · rename_i rest e
      cases h
      rw [e, quiet_cons] at hq
      exact ⟨hq.2, [], by simp, hnone⟩
    · cases h
  | recv bs =>
    dsimp only at h
    split at h
    · split at h <;> cases h
      exact ⟨hq, [.recv bs], rfl, by intro e he; cases List.mem_singleton.1 he; simp⟩
    · cases h
  | bytesWritten k =>
    dsimp only at h
    split at h
    · split at h <;> cases h
      refine ⟨?_, [], by simp, hnone⟩
      dsimp only
      split
      · exact quiet_cons.2 ⟨by simp, hq⟩
      · exact hq
    · cases h
  | init =>
    dsimp only at h
    split at h <;> cases h
    refine ⟨hq, [.init], ?_, by intro e he; cases List.mem_singleton.1 he; simp⟩
    simp only [Conn.initialize, Conn.emit, Conn.toReceivingHeaders]
    split <;> rfl
  | readParams =>
    dsimp only at h
    split at h <;> cases h
    exact ⟨hq, [], by simp only [Conn.requestParams]; split <;> simp, hnone⟩
  | setParam n v =>
    dsimp only at h
    split at h <;> cases h
    exact ⟨hq, [], by simp only [Conn.setRequestParam, Conn.requestParams]; split <;> simp, hnone⟩
  | readDecoded d =>
    dsimp only at h
    split at h <;> cases h
    refine ⟨hq, [], ?_, hnone⟩
    cases d <;> simp only [Conn.readDecoded] <;> split <;> simp

theorem transfers_reach {content : Bytes} {bufferSize : Nat} {a : List Ev} {h : RespHead} {x : Xfer}
    (hx : Transfers content bufferSize a h x) : Reach Proper x.s := by
  induction hx with
  | start s hr => exact hr
  | other x l s' q hx hp hw hs _ _ ih => exact .step _ _ _ ih hp hs
  | skip x q hx _ _ _ ih => exact ih
  | payload x q d chunk t' s' k hx he hf hq hc hd hn hrun ih =>
    rw [run_call he hf] at hrun
    have h1 : x.s.step (.call (.writeContent chunk)) = some ⟨x.s.c, .writeContent chunk :: x.s.stack⟩ := by simp [Conf.step, hf, he, Call.instr]
    have r1 := Reach.step _ _ _ ih (show Proper x.s (.call (.writeContent chunk)) from fun e => by cases e) h1
    refine .step _ _ (.tau k) r1 (fun e => by cases e) ?_
    rw [← hrun]
    simp [Conf.step, hf, Conf.run, Call.instr]

theorem exec_grows (k : Nat) (i : Instr) (c : Conn) : ∃ es, (exec k i c).1.log = c.log ++ es := by
  by_cases hi : (∀ ct, i ≠ .writeContent ct) ∧ (∀ ct, i ≠ .writeResponseRest ct) ∧ (∀ st hs ct, i ≠ .writeResponse st hs ct)
  · obtain ⟨-, es, h, -⟩ := exec_quiet k i c hi; exact ⟨es, h⟩
  · cases i with
    | writeContent ct =>
      simp only [exec, Conn.writeContent]
      have rv : c.readView.log = c.log := by simp only [Conn.readView]; split <;> rfl
      split
      · exact ⟨[], by simp⟩
      split
      · exact ⟨[], by simp⟩
      split
      · exact ⟨[], by simp⟩
      split
      · split
        · exact ⟨[], by simp [rv]⟩
        · have key : ∀ e, ∃ es, (({ c.readView with sent := c.readView.sent + ct.length } : Conn).write e).log = c.log ++ es := by
            intro e
            rcases write_log ({ c.readView with sent := c.readView.sent + ct.length } : Conn) e with h | h
            · exact ⟨[], by rw [h]; simpa using rv⟩
            · exact ⟨[e], by rw [h]; dsimp only; rw [rv]⟩
          split <;> split <;> exact key _
      · exact ⟨[], by simp⟩
    | writeResponseRest ct =>
      have rv : c.readView.log = c.log := by simp only [Conn.readView]; split <;> rfl
      simp only [exec, Conn.writeResponseRest]
      repeat' split
      all_goals exact ⟨[], by simp [rv]⟩
    | writeResponse st hs ct =>
      simp only [exec, Conn.writeResponse]
      split <;> exact ⟨[], by simp⟩
    | _ => exact absurd ⟨by simp, by simp, by simp⟩ hi

theorem step_grows {s s' : Conf} {l : Label} (h : s.step l = some s') : ∃ es, s'.c.log = s.c.log ++ es := by
  by_cases hl : ∃ k, l = .tau k
  · obtain ⟨k, rfl⟩ := hl
    unfold Conf.step at h
    split at h
    · cases h
    dsimp only at h
    split at h
    · cases h
    · cases h
    · cases h; exact exec_grows k _ s.c
  · by_cases hc : ∃ a, l = .call a
    · obtain ⟨a, rfl⟩ := hc
      unfold Conf.step at h
      split at h
      · cases h
      dsimp only at h
      split at h <;> cases h
      exact ⟨[], by simp⟩
    · have : Conf.step ⟨s.c, s.stack⟩ l = some s' := h
      -- the other labels look at the stack only to see who is in control
      have hex : ∃ es, s'.c.log = s.c.log ++ es := by
        unfold Conf.step at h
        split at h
        · cases h
        cases l with
        | tau k => exact absurd ⟨k, rfl⟩ hl
        | call a => exact absurd ⟨a, rfl⟩ hc
        | ret => dsimp only at h; split at h <;> cases h; exact ⟨[], by simp⟩
        | recv bs =>
          dsimp only at h
          split at h
          · split at h <;> cases h
            exact ⟨[.recv bs], rfl⟩
          · cases h
        | bytesWritten k =>
          dsimp only at h
          split at h
          · split at h <;> cases h
            exact ⟨[], by simp⟩
          · cases h
        | init =>
          dsimp only at h
          split at h <;> cases h
          refine ⟨[.init], ?_⟩
          simp only [Conn.initialize, Conn.emit, Conn.toReceivingHeaders]
          split <;> rfl
        | readParams =>
          dsimp only at h
          split at h <;> cases h
          exact ⟨[], by simp only [Conn.requestParams]; split <;> simp⟩
        | setParam n v =>
          dsimp only at h
          split at h <;> cases h
          exact ⟨[], by simp only [Conn.setRequestParam, Conn.requestParams]; split <;> simp⟩
        | readDecoded d =>
          dsimp only at h
          split at h <;> cases h
          refine ⟨[], ?_⟩
          cases d <;> simp only [Conn.readDecoded] <;> split <;> simp
      exact hex

/-- A list of events up to the one that ends the response. -/
theorem split_ended : ∀ (es : List Ev), ∃ e1 d, es = e1 ++ d ∧ NotEnded e1 ∧
    (d = [] ∨ (∃ d', d = .completed :: d') ∨ ∃ f u d', d = .closed f u :: d')
  | [] => ⟨[], [], rfl, (by intro e he; cases he), .inl rfl⟩
  | e :: es => by
    by_cases h1 : e = .completed
    · subst h1; exact ⟨[], .completed :: es, rfl, (by intro e he; cases he), .inr (.inl ⟨es, rfl⟩)⟩
    · by_cases h2 : ∃ f u, e = .closed f u
      · obtain ⟨f, u, rfl⟩ := h2; exact ⟨[], .closed f u :: es, rfl, (by intro e he; cases he), .inr (.inr ⟨f, u, es, rfl⟩)⟩
      · obtain ⟨e1, d, h3, h4, h5⟩ := split_ended es
        refine ⟨e :: e1, d, by rw [h3]; rfl, ?_, h5⟩
        intro x hx
        rcases List.mem_cons.1 hx with rfl | hx
        · exact ⟨h1, fun f u hc => h2 ⟨f, u, hc⟩⟩
        · exact h4 x hx

/-- How far the transfer is. -/
def Progress (content : Bytes) (a : List Ev) (h : RespHead) (x : Xfer) (b d : List Ev) : Prop :=
  x.s.c.log = a ++ .head h :: (b ++ d) ∧ NotEnded b ∧ contentOf b = content.take x.t.pos ∧
    (d = [] ∧ NoWrites x.s.stack ∨ (∃ d', d = .completed :: d') ∧ x.t.pos = content.length ∨ ∃ f u d', d = .closed f u :: d')

structure XferOk (content : Bytes) (bufferSize : Nat) (a : List Ev) (h : RespHead) (x : Xfer) : Prop where
  get : ∃ r, (readys a).getLast? = some r ∧ r.method ≠ b!"HEAD"
  cont : x.t.content = content
  buf : x.t.bufferSize = if bufferSize < 512 then 512 else bufferSize
  pos : x.t.pos ≤ content.length
  progress : ∃ b d, Progress content a h x b d

theorem contentOf_append (a b : List Ev) : contentOf (a ++ b) = contentOf a ++ contentOf b := by simp [contentOf]

theorem noContent_content {es : List Ev} (h : NoContent es) : contentOf es = [] := by
  apply contentOf_nil
  intro e he
  obtain ⟨h1, h2⟩ := h e he
  cases e <;> first | rfl | (exact absurd rfl (h1 _)) | (exact absurd rfl (h2 _))

theorem next_eq (x : Transfer) (p : Nat) (hp : x.pos ≤ x.content.length) :
    x.next p = if min (x.bufferSize - p) (x.content.length - x.pos) = 0 then none else
      some ((x.content.drop x.pos).take (min (x.bufferSize - p) (x.content.length - x.pos)),
        { x with pos := x.pos + min (x.bufferSize - p) (x.content.length - x.pos) }) := by
  simp only [Transfer.next]
  have h0 : (if ((x.bufferSize : Int) - p) > (x.content.length : Int) - x.pos then (x.content.length : Int) - x.pos else (x.bufferSize : Int) - p) =
      min ((x.bufferSize : Int) - p) ((x.content.length : Int) - x.pos) := by split <;> omega
  rw [h0]
  by_cases h1 : (x.bufferSize : Int) - p ≤ 0
  · rw [if_pos h1, if_pos (by omega)]
  · rw [if_neg h1]
    have h2 : (min ((x.bufferSize : Int) - p) ((x.content.length : Int) - x.pos)).toNat = min (x.bufferSize - p) (x.content.length - x.pos) := by omega
    rw [h2]
    by_cases h3 : min (x.bufferSize - p) (x.content.length - x.pos) = 0
    · rw [if_pos h3, if_neg (by omega)]
    · rw [if_neg h3, if_pos (by omega)]

theorem next_some {x : Transfer} {p : Nat} {chunk : Bytes} {x' : Transfer} (h : x.next p = some (chunk, x')) (hp : x.pos ≤ x.content.length) :
    ∃ n, n = min (x.bufferSize - p) (x.content.length - x.pos) ∧ 0 < n ∧ chunk = (x.content.drop x.pos).take n ∧ chunk.length = n ∧
      x' = { x with pos := x.pos + n } ∧ x.pos + n ≤ x.content.length ∧ p + n ≤ x.bufferSize := by
  rw [next_eq x p hp] at h
  split at h
  · cases h
  · simp only [Option.some.injEq, Prod.mk.injEq] at h
    obtain ⟨rfl, rfl⟩ := h
    exact ⟨_, rfl, by omega, rfl, by rw [List.length_take, List.length_drop]; omega, rfl, by omega, by omega⟩

theorem next_none {x : Transfer} {p : Nat} (h : x.next p = none) (hp : x.pos ≤ x.content.length) : x.pos = x.content.length ∨ x.bufferSize ≤ p := by
  rw [next_eq x p hp] at h
  split at h
  · omega
  · cases h

theorem transfers_ok {content : Bytes} {bufferSize : Nat} {a : List Ev} {h : RespHead} {x : Xfer} (hl : h.len = content.length)
    (hx : Transfers content bufferSize a h x) : XferOk content bufferSize a h x := by
  induction hx with
  | start s hr he hf hlog hq =>
    have hreq : ∃ r, (readys a).getLast? = some r ∧ r.method ≠ b!"HEAD" := by
      obtain ⟨h1, -, -, -, h5, -⟩ := writing_state hr he hf (a := a) (b := []) hlog (by intro e he; cases he)
      exact ⟨_, h1, h5⟩
    exact ⟨hreq, rfl, rfl, Nat.zero_le _, [], [], by simpa using hlog, (by intro e he; cases he), by simp [Transfer.create, contentOf], .inl ⟨rfl, hq⟩⟩
  | other x l s' q hx hp hw hs _ _ ih =>
    obtain ⟨hreq, hcont, hbuf, hpos, b, d, hlog, hne, hct, hd⟩ := ih
    refine ⟨hreq, hcont, hbuf, hpos, ?_⟩
    rcases hd with ⟨rfl, hq⟩ | hd
    · rw [List.append_nil] at hlog
      obtain ⟨hq', es, hes, hnc⟩ := step_quiet hq (hw ⟨b, hlog, hne⟩) hs
      obtain ⟨e1, d, rfl, hn1, hd⟩ := split_ended es
      have hc1 : contentOf e1 = [] := noContent_content fun e he => hnc e (by simp [he])
      have hnb : NotEnded (b ++ e1) := by
        intro e he
        rcases List.mem_append.1 he with he | he
        · exact hne e he
        · exact hn1 e he
      refine ⟨b ++ e1, d, by rw [hes, hlog]; simp, hnb, by rw [contentOf_append, hc1, List.append_nil]; exact hct, ?_⟩
      rcases hd with rfl | ⟨d', rfl⟩ | hd
      · exact .inl ⟨rfl, hq'⟩
      · refine .inr (.inl ⟨⟨d', rfl⟩, ?_⟩)
        obtain ⟨-, ph, hruns⟩ := reach_log (Reach.step _ _ _ (transfers_reach hx) hp hs)
        have e' : s'.c.log = a ++ .head h :: ((b ++ e1) ++ .completed :: d') := by rw [hes, hlog]; simp
        obtain ⟨r, k1, ⟨lenIn, st, hs', hl', hbh⟩, -, k4⟩ := head_split hruns e'
        obtain ⟨r0, k5, k6⟩ := hreq
        rw [k1] at k5; cases k5
        have hch : h.chunked = false := by
          cases hc : h.chunked with
          | false => rfl
          | true => have := (buildHead_facts hbh).2 hc; omega
        obtain ⟨m, p1, p2⟩ := k4.append
        obtain ⟨-, st⟩ := writing_path r h _ p1 hnb
        rw [contentOf_append, hc1, List.append_nil, hct] at st
        rcases st with ⟨rfl, -⟩ | ⟨rfl, k | k | ⟨k, -⟩⟩
        · cases p2 with
          | cons _ _ _ _ _ hn _ => cases hn with | completedOpen _ _ _ k _ _ => omega
        · exact absurd k k6
        · rw [hl, List.length_take] at k
          show x.t.pos = content.length
          omega
        · rw [hch] at k; cases k
      · exact .inr (.inr hd)
    · obtain ⟨es, hes⟩ := step_grows hs
      refine ⟨b, d ++ es, by rw [hes, hlog]; simp, hne, hct, .inr ?_⟩
      rcases hd with ⟨⟨d', rfl⟩, hp⟩ | ⟨f, u, d', rfl⟩
      · exact .inl ⟨⟨d' ++ es, rfl⟩, hp⟩
      · exact .inr ⟨f, u, d' ++ es, rfl⟩
  | skip x q hx _ _ _ ih => exact ⟨ih.get, ih.cont, ih.buf, ih.pos, ih.progress⟩
  | payload x q d chunk t' s' k hx he hf hq hc hd hn hrun ih =>
    obtain ⟨hreq, hcont, hbuf, hpos, b, d0, hlog, hne, hct, hd0⟩ := ih
    obtain ⟨n, hn1, hn2, rfl, hn4, rfl, hn5, hn6⟩ := next_some hn (by rw [hcont]; exact hpos)
    rw [hcont] at hn1 hn4 hn5 hrun
    rcases hd0 with ⟨rfl, hqs⟩ | ⟨⟨d', rfl⟩, hp⟩ | ⟨f, u, d', rfl⟩
    · rw [List.append_nil] at hlog
      have hlen : (contentOf b).length = x.t.pos := by rw [hct, List.length_take]; omega
      have hw := C18_writeContent x.s (transfers_reach hx) he hf a b h hlog hne (by omega) ((content.drop x.t.pos).take n) k
      obtain ⟨s1, h1, h2⟩ := hw.2 (by rw [hlen, hn4, hl]; omega) (by intro e; rw [e] at hn4; simp at hn4; omega)
      rw [hrun] at h1
      cases h1
      refine ⟨hreq, hcont, hbuf, hn5, b ++ [.body ((content.drop x.t.pos).take n)], [], by rw [h2, hlog]; simp, ?_, ?_, .inl ⟨rfl, ?_⟩⟩
      · intro e he
        rcases List.mem_append.1 he with he | he
        · exact hne e he
        · cases List.mem_singleton.1 he; simp
      · rw [contentOf_append, hct]
        simp [contentOf, Ev.content]
        rw [← List.take_add]
      · rw [run_call he hf] at hrun
        simp only [Conf.run, Option.some.injEq] at hrun
        rw [← hrun]
        refine quiet_append.2 ⟨?_, hqs⟩
        simp only [Call.instr, exec, Conn.writeContent]
        repeat' split
        all_goals simp [NoWrites]
    · omega
    · exact absurd (by simp) (hc _ hlog f u)

/-- C33: the content of the response is always the part of the file that the transfer has read, and when the response is completed it is
the whole file. -/
theorem C33_exact_partial (content : Bytes) (bufferSize : Nat) (a : List Ev) (h : RespHead) (x : Xfer) (hl : h.len = content.length)
    (hx : Transfers content bufferSize a h x) :
    ∃ b d, x.s.c.log = a ++ .head h :: (b ++ d) ∧ NotEnded b ∧ (d = [] ∨ (∃ d', d = .completed :: d') ∨ ∃ f u d', d = .closed f u :: d') ∧
      contentOf b = content.take x.t.pos ∧ ((∃ d', d = .completed :: d') → contentOf b = content) := by
  obtain ⟨hreq, hcont, hbuf, hpos, b, d, hlog, hne, hct, hd⟩ := transfers_ok hl hx
  refine ⟨b, d, hlog, hne, ?_, hct, ?_⟩
  · rcases hd with ⟨rfl, -⟩ | ⟨h, -⟩ | h
    · exact .inl rfl
    · exact .inr (.inl h)
    · exact .inr (.inr h)
  · rintro ⟨d', rfl⟩
    rcases hd with ⟨h, -⟩ | ⟨-, h⟩ | ⟨f, u, d'', h⟩
    · cases h
    · rw [hct, h, List.take_length]
    · cases h


/-! #### The buffer never holds more than its size, and the transfer never stalls -/

theorem exec_dev_none (k : Nat) (i : Instr) (c : Conn) (h : c.dev = none) : (exec k i c).1.dev = none := by
  have hw : ∀ (c : Conn) (e : Ev), c.dev = none → (c.write e).dev = none := by
    intro c e h; simp [Conn.write, h]
  have hv : ∀ c : Conn, c.dev = none → c.readView.dev = none := by
    intro c h; simp only [Conn.readView]; split <;> exact h
  cases i with
  | env => exact h
  | processInput => simp only [exec, Conn.processInput, h]; repeat' split
                    all_goals first | exact h | simp_all
  | recvContent =>
    simp only [exec, Conn.recvContent]
    repeat' split
    all_goals first | exact h | exact hw _ _ h
  | sendHeaders =>
    simp only [exec, Conn.sendHeaders]
    split
    · exact h
    · simp only [Conn.emit]; split <;> exact h
  | sendContent =>
    simp only [exec, Conn.sendContent]
    repeat' split
    all_goals first | exact h | exact hv _ h
  | sendContentRest => simp only [exec, Conn.sendContentRest]; split <;> exact h
  | completed => simp only [exec, Conn.complete]; split <;> exact h
  | completedRest => simp only [exec, Conn.completedRest]; split <;> exact h
  | completedRest2 => simp only [exec, Conn.completedRest2, Conn.toReceivingHeaders]; split <;> exact h
  | flush => simp only [exec, Conn.flush, h]
  | drain => simp only [exec, Conn.drain]; split <;> exact h
  | drainRest => simp only [exec, Conn.drainRest, h]
  | flushing => simp only [exec, Conn.toFlushing]; split <;> exact h
  | flushingRest => simp only [exec, Conn.flushingRest, h]; split <;> exact h
  | closed f => simp only [exec, Conn.toClosed]; split <;> exact h
  | closedRest => rfl
  | errorResponse code => simp only [exec, Conn.errorResponse]; split
                          · exact h
                          · exact hw _ _ h
  | writeResponse st hs ct => simp only [exec, Conn.writeResponse]; split <;> exact h
  | writeResponseRest ct =>
    simp only [exec, Conn.writeResponseRest]
    repeat' split
    all_goals first | exact h | exact hv _ h
  | writeHeaders st hs =>
    simp only [exec, Conn.writeHeaders]
    repeat' split
    all_goals first | exact h | exact hv _ h | exact hw _ _ (hv _ h)
  | writeContent ct =>
    simp only [exec, Conn.writeContent]
    split
    · exact h
    split
    · exact h
    split
    · exact h
    split
    · split
      · exact hv _ h
      · split <;> split <;> exact hw _ _ (hv _ h)
    · exact h
  | endContent =>
    simp only [exec, Conn.endContent]
    repeat' split
    all_goals first | exact h | exact hw _ _ h

theorem step_dev {s s' : Conf} {l : Label} (hl : l ≠ .init) (h : s.step l = some s') (hd : s.c.dev = none) : s'.c.dev = none := by
  unfold Conf.step at h
  split at h
  · cases h
  cases l with
  | tau k =>
    dsimp only at h
    split at h
    · cases h
    · cases h
    · cases h; exact exec_dev_none k _ _ hd
  | call a => dsimp only at h; split at h <;> cases h; exact hd
  | ret => dsimp only at h; split at h <;> cases h; exact hd
  | recv bs => rw [hd] at h; dsimp only at h; split at h <;> cases h
  | bytesWritten k => rw [hd] at h; dsimp only at h; split at h <;> cases h
  | init => exact absurd rfl hl
  | readParams => dsimp only at h; split at h <;> cases h; simp only [Conn.requestParams]; split <;> exact hd
  | setParam n v => dsimp only at h; split at h <;> cases h; simp only [Conn.setRequestParam, Conn.requestParams]; split <;> exact hd
  | readDecoded d =>
    dsimp only at h
    split at h <;> cases h
    cases d <;> simp only [Conn.readDecoded] <;> split <;> exact hd

theorem unfinished_prefix {a : List Ev} {h : RespHead} {l1 l2 : List Ev} (h1 : Unfinished a h (l1 ++ l2)) (hl : (a ++ [.head h]) <+: l1) : Unfinished a h l1 := by
  obtain ⟨b, e, hb⟩ := h1
  obtain ⟨c, hc⟩ := hl
  refine ⟨c, by rw [← hc]; simp, fun e' he' => hb e' ?_⟩
  rw [← hc] at e
  have : c ++ l2 = b := by simpa using e
  rw [← this]; simp [he']

/-- What a call of `writeNextPayload` that has something to send does. -/
theorem payload_step {content : Bytes} {bufferSize : Nat} {a : List Ev} {h : RespHead} {x : Xfer} (hl : h.len = content.length)
    (hx : Transfers content bufferSize a h x) (he : x.s.inEnv = true) (hf : x.s.c.fault = none) (hu : Unfinished a h x.s.c.log)
    {d : Dev} {chunk : Bytes} {t' : Transfer} (hd : x.s.c.dev = some d) (hn : x.t.next d.pending = some (chunk, t')) (k : Nat) :
    ∃ s', x.s.run [.call (.writeContent chunk), .tau k] = some s' ∧ s'.c.log = x.s.c.log ++ [.body chunk] ∧
      s'.c.dev = some { d with pending := d.pending + chunk.length } ∧ s'.c.fault = none ∧
      s'.stack = (if t'.pos = content.length then [.completed] else []) ++ x.s.stack ∧ s'.c.st = .sendingContent := by
  obtain ⟨hreq, hcont, hbuf, hpos, b, dd, hlog, hne, hct, hdd⟩ := transfers_ok hl hx
  have hdd' : dd = [] := by
    obtain ⟨b', hb', hne'⟩ := hu
    rw [hlog] at hb'
    have e : b ++ dd = b' := by simpa using hb'
    rcases hdd with ⟨h, -⟩ | ⟨⟨d', rfl⟩, -⟩ | ⟨f, u, d', rfl⟩
    · exact h
    · exact absurd rfl (hne' .completed (by rw [← e]; simp)).1
    · exact absurd rfl ((hne' (.closed f u) (by rw [← e]; simp)).2 f u)
  subst hdd'
  rw [List.append_nil] at hlog
  obtain ⟨n, hn1, hn2, rfl, hn4, rfl, hn5, hn6⟩ := next_some hn (by rw [hcont]; exact hpos)
  rw [hcont] at hn1 hn4 hn5 ⊢
  have hlen : (contentOf b).length = x.t.pos := by rw [hct, List.length_take]; omega
  obtain ⟨h1, h2, h3, h4, h5, h6, h7, h8, -⟩ := writing_state (transfers_reach hx) he hf hlog hne
  obtain ⟨-, ph, hruns⟩ := reach_log (transfers_reach hx)
  obtain ⟨r, -, ⟨lenIn, st, hs, hl', hbh⟩, -, -⟩ := head_split hruns hlog
  have hch : h.chunked = false := by
    cases hc : h.chunked with
    | false => rfl
    | true => have := (buildHead_facts hbh).2 hc; omega
  obtain ⟨r1, r3, -, r2, -⟩ := h3
  have hne0 : (content.drop x.t.pos).take n ≠ [] := by intro e; rw [e] at hn4; simp at hn4; omega
  rw [run_call he hf]
  have hwr := writeContent_writes (c := x.s.c) (d := d) (ct := (content.drop x.t.pos).take n) h2 (by rw [r1]; exact h4)
    (by rw [r1, r2, hn4, hlen, hl]; omega) hne0 h7 h5 hd
  refine ⟨_, rfl, ?_, ?_, ?_, ?_, ?_⟩
  all_goals simp only [Call.instr, exec, hwr, r3, hch]
  · rfl
  · simp [Ev.wire]
  · exact hf
  · rw [hn4, r1, r2, hlen, hl]
    congr 1
    by_cases hc : x.t.pos + n = content.length
    · rw [if_pos hc, if_pos (by omega)]
    · rw [if_neg hc, if_neg (by omega)]
  · exact h2


/-- C33: a call of `writeNextPayload` that writes leaves at most the buffer size (corrected to at least 512) in the device. -/
theorem C33_buffer (content : Bytes) (bufferSize : Nat) (a : List Ev) (h : RespHead) (x : Xfer) (hl : h.len = content.length)
    (hx : Transfers content bufferSize a h x) (he : x.s.inEnv = true) (hf : x.s.c.fault = none) (hu : Unfinished a h x.s.c.log)
    (d : Dev) (chunk : Bytes) (t' : Transfer) (hd : x.s.c.dev = some d) (hn : x.t.next d.pending = some (chunk, t')) (k : Nat) :
    ∃ s' d', x.s.run [.call (.writeContent chunk), .tau k] = some s' ∧ s'.c.dev = some d' ∧ d'.pending = d.pending + chunk.length ∧
      d'.pending ≤ max bufferSize 512 := by
  obtain ⟨s', h1, -, h3, -⟩ := payload_step hl hx he hf hu hd hn k
  obtain ⟨-, hcont, hbuf, hpos, -⟩ := transfers_ok hl hx
  obtain ⟨n, hn1, hn2, rfl, hn4, rfl, hn5, hn6⟩ := next_some hn (by rw [hcont]; exact hpos)
  refine ⟨s', _, h1, h3, rfl, ?_⟩
  show d.pending + _ ≤ _
  rw [hn4]
  rw [hbuf] at hn6
  split at hn6 <;> omega

/-- C33: while the response is unfinished and the device holds less than the buffer size, a call of `writeNextPayload` writes
something. -/
theorem C33_progress (content : Bytes) (bufferSize : Nat) (a : List Ev) (h : RespHead) (x : Xfer) (hl : h.len = content.length)
    (hx : Transfers content bufferSize a h x) (he : x.s.inEnv = true) (hf : x.s.c.fault = none) (hu : Unfinished a h x.s.c.log) :
    ∃ d, x.s.c.dev = some d ∧ (d.pending < max bufferSize 512 → ∃ chunk t', x.t.next d.pending = some (chunk, t') ∧ chunk ≠ [] ∧
      chunk = (content.drop x.t.pos).take chunk.length ∧ t'.pos = x.t.pos + chunk.length) := by
  obtain ⟨hreq, hcont, hbuf, hpos, b, dd, hlog, hne, hct, hdd⟩ := transfers_ok hl hx
  obtain ⟨b', hb', hne'⟩ := hu
  obtain ⟨h1, h2, h3, h4, h5, h6, h7, h8, -⟩ := writing_state (transfers_reach hx) he hf hb' hne'
  obtain ⟨d, hd⟩ := Option.isSome_iff_exists.1 h8
  refine ⟨d, hd, fun hlt => ?_⟩
  have e : b ++ dd = b' := by rw [hlog] at hb'; simpa using hb'
  have hdd' : dd = [] := by
    rcases hdd with ⟨h, -⟩ | ⟨⟨d', rfl⟩, -⟩ | ⟨f, u, d', rfl⟩
    · exact h
    · exact absurd rfl (hne' .completed (by rw [← e]; simp)).1
    · exact absurd rfl ((hne' (.closed f u) (by rw [← e]; simp)).2 f u)
  subst hdd'
  rw [List.append_nil] at e
  subst e
  have hlen : (contentOf b).length = x.t.pos := by rw [hct, List.length_take]; omega
  have hb : x.t.bufferSize = max bufferSize 512 := by rw [hbuf]; split <;> omega
  cases hn : x.t.next d.pending with
  | none =>
    rcases next_none hn (by rw [hcont]; exact hpos) with k | k
    · rw [hcont] at k; omega
    · omega
  | some p =>
    obtain ⟨chunk, t'⟩ := p
    obtain ⟨n, hn1, hn2, hn3, hn4, rfl, hn5, hn6⟩ := next_some hn (by rw [hcont]; exact hpos)
    refine ⟨chunk, _, rfl, by intro e; rw [e] at hn4; simp at hn4; omega, by rw [hn4, hn3, hcont], by rw [hn4]⟩

theorem not_stalled {content : Bytes} {bufferSize : Nat} {a : List Ev} {h : RespHead} {x : Xfer} (hl : h.len = content.length)
    (hx : Transfers content bufferSize a h x) (hu : Unfinished a h x.s.c.log) (hp : x.t.pos < content.length) :
    ∀ d, x.s.c.dev = some d → 0 < x.queued ∨ 0 < d.pending := by
  induction hx with
  | start s hr he hf hlog hq => intro d hd; left; simp
  | other x l s' q hx hpr hw hs hq1 hq2 ih =>
    intro d' hd'
    obtain ⟨b, dd, hlog, -⟩ := (transfers_ok hl hx).progress
    obtain ⟨es, hes⟩ := step_grows hs
    have hu' : Unfinished a h x.s.c.log := by
      have : Unfinished a h s'.c.log := hu
      rw [hes] at this
      exact unfinished_prefix this ⟨b ++ dd, by rw [hlog]; simp⟩
    have hli : l ≠ .init := by
      rintro rfl
      obtain ⟨k1, k2⟩ := hpr rfl
      have hf : x.s.c.fault = none := by
        cases hfa : x.s.c.fault with
        | none => rfl
        | some f => simp [Conf.step, hfa] at hs
      have he : x.s.inEnv = true := by simp [Conf.inEnv, k1]
      obtain ⟨b', hb', hne'⟩ := hu'
      obtain ⟨-, st, -⟩ := writing_state (transfers_reach hx) he hf hb' hne'
      rw [st] at k2; simp at k2
    cases hd : x.s.c.dev with
    | none => rw [step_dev hli hs hd] at hd'; cases hd'
    | some d =>
      by_cases hsent : Sent x.s s'
      · left; have := hq1 hsent; show 0 < q; omega
      · have hge : d.pending ≤ d'.pending := Nat.le_of_not_lt fun hlt => hsent ⟨d, d', hd, hd', hlt⟩
        rcases ih hu' hp d hd with k | k
        · left; show 0 < q; rcases hq2 hsent with e | e <;> omega
        · right; omega
  | skip x q hx he hq hnone ih =>
    intro d hd
    right
    have ok := transfers_ok hl hx
    rcases next_none (hnone d hd) (by rw [ok.cont]; exact ok.pos) with k | k
    · rw [ok.cont] at k; have : x.t.pos < content.length := hp; omega
    · rw [ok.buf] at k; split at k <;> omega
  | payload x q d chunk t' s' k hx he hf hq hc hd hn hrun ih =>
    intro d' hd'
    right
    obtain ⟨b, dd, hlog, -⟩ := (transfers_ok hl hx).progress
    have ok := transfers_ok hl hx
    obtain ⟨n, hn1, hn2, hn3, hn4, rfl, hn5, hn6⟩ := next_some hn (by rw [ok.cont]; exact ok.pos)
    have hg : ∃ es, s'.c.log = x.s.c.log ++ es := by
      rw [run_call he hf] at hrun
      simp only [Conf.run, Option.some.injEq] at hrun
      rw [← hrun]; exact exec_grows k _ _
    obtain ⟨es, hes⟩ := hg
    have hu' : Unfinished a h x.s.c.log := by
      have : Unfinished a h s'.c.log := hu
      rw [hes] at this
      exact unfinished_prefix this ⟨b ++ dd, by rw [hlog]; simp⟩
    obtain ⟨s1, h1, -, h3, -⟩ := payload_step hl hx he hf hu' hd hn k
    rw [hrun] at h1; cases h1
    rw [hd'] at h3; cases h3
    show 0 < d.pending + chunk.length
    omega

/-- C33: the transfer never stalls: while the response is unfinished, a call of `writeNextPayload` is queued or the device still has
bytes to send (and will emit `bytesWritten`, which queues one). -/
theorem C33_no_stall (content : Bytes) (bufferSize : Nat) (a : List Ev) (h : RespHead) (x : Xfer) (hl : h.len = content.length)
    (hx : Transfers content bufferSize a h x) (he : x.s.inEnv = true) (hf : x.s.c.fault = none) (hu : Unfinished a h x.s.c.log) :
    ∃ d, x.s.c.dev = some d ∧ (0 < x.queued ∨ 0 < d.pending) := by
  obtain ⟨b', hb', hne'⟩ := id hu
  obtain ⟨h1, h2, h3, h4, h5, h6, h7, h8, -⟩ := writing_state (transfers_reach hx) he hf hb' hne'
  obtain ⟨d, hd⟩ := Option.isSome_iff_exists.1 h8
  refine ⟨d, hd, not_stalled hl hx hu ?_ d hd⟩
  obtain ⟨hreq, hcont, hbuf, hpos, b, dd, hlog, hne, hct, hdd⟩ := transfers_ok hl hx
  have e : b ++ dd = b' := by rw [hlog] at hb'; simpa using hb'
  have hdd' : dd = [] := by
    rcases hdd with ⟨h, -⟩ | ⟨⟨d', rfl⟩, -⟩ | ⟨f, u, d', rfl⟩
    · exact h
    · exact absurd rfl (hne' .completed (by rw [← e]; simp)).1
    · exact absurd rfl ((hne' (.closed f u) (by rw [← e]; simp)).2 f u)
  subst hdd'
  rw [List.append_nil] at e
  subst e
  have hlen : (contentOf b).length = x.t.pos := by rw [hct, List.length_take]; omega
  omega


/-- The device sends everything it has. -/
theorem drained {content : Bytes} {bufferSize : Nat} {a : List Ev} {h : RespHead} {x : Xfer} (hl : h.len = content.length)
    (hx : Transfers content bufferSize a h x) (he : x.s.inEnv = true) (hf : x.s.c.fault = none) (hu : Unfinished a h x.s.c.log) :
    ∃ x', Transfers content bufferSize a h x' ∧ x'.s.inEnv = true ∧ x'.s.c.fault = none ∧ x'.s.c.log = x.s.c.log ∧ x'.t = x.t ∧
      0 < x'.queued ∧ ∃ d, x'.s.c.dev = some d ∧ d.pending = 0 := by
  obtain ⟨d, hd, hst⟩ := C33_no_stall content bufferSize a h x hl hx he hf hu
  by_cases hp : d.pending = 0
  · exact ⟨x, hx, he, hf, rfl, rfl, by omega, d, hd, hp⟩
  · have h1 : x.s.step (.bytesWritten d.pending) = some ⟨{ x.s.c with dev := some { d with pending := d.pending - d.pending } },
        if d.drainConn then .drain :: x.s.stack else x.s.stack⟩ := by simp [Conf.step, hf, he, hd]
    have hx1 := Transfers.other x _ _ (x.queued + 1) hx (show Proper x.s (.bytesWritten d.pending) from fun e => by cases e)
      (fun _ c e => by cases e) h1 (fun _ => rfl) (fun _ => .inr rfl)
    obtain ⟨b', hb', hne'⟩ := id hu
    obtain ⟨-, hst2, -⟩ := writing_state (transfers_reach hx) he hf hb' hne'
    by_cases hdr : d.drainConn = true
    · rw [if_pos hdr] at hx1
      have h2 : Conf.step ⟨{ x.s.c with dev := some { d with pending := d.pending - d.pending } }, .drain :: x.s.stack⟩ (.tau 0) =
          some ⟨{ x.s.c with dev := some { d with pending := d.pending - d.pending } }, x.s.stack⟩ := by
        simp [Conf.step, hf, exec, Conn.drain, hst2]
      have hx2 := Transfers.other _ _ _ (x.queued + 1 + 0) hx1 (fun e => by cases e) (fun _ c e => by cases e) h2
        (fun hsent => by
          obtain ⟨d1, d2, e1, e2, e3⟩ := hsent
          simp only [Option.some.injEq] at e1 e2
          rw [← e1, ← e2] at e3; simp at e3) (fun _ => .inl rfl)
      exact ⟨_, hx2, by simpa [Conf.inEnv] using he, hf, rfl, rfl, by simp, _, rfl, by simp⟩
    · rw [if_neg hdr] at hx1
      exact ⟨_, hx1, by simpa [Conf.inEnv] using he, hf, rfl, rfl, by simp, _, rfl, by simp⟩

/-- C33: from every state of an unfinished transfer the response can be completed with exactly the file, by the device sending
what it has and the queued calls being made: nothing else is needed. -/
theorem C33_can_finish (content : Bytes) (bufferSize : Nat) (a : List Ev) (h : RespHead) (hl : h.len = content.length) :
    ∀ (n : Nat) (x : Xfer), content.length - x.t.pos = n → Transfers content bufferSize a h x → x.s.inEnv = true →
    x.s.c.fault = none → Unfinished a h x.s.c.log →
    ∃ x' b, Transfers content bufferSize a h x' ∧ x.s.c.log <+: x'.s.c.log ∧ x'.s.c.log = a ++ .head h :: (b ++ [.completed]) ∧
      contentOf b = content := by
  intro n
  induction n using Nat.strongRecOn with
  | ind n ih =>
  intro x hn hx he hf hu
  obtain ⟨x1, hx1, he1, hf1, hlog1, ht1, hq1, d, hd, hp⟩ := drained hl hx he hf hu
  have hu1 : Unfinished a h x1.s.c.log := by rw [hlog1]; exact hu
  obtain ⟨d', hd', hpr⟩ := C33_progress content bufferSize a h x1 hl hx1 he1 hf1 hu1
  rw [hd] at hd'; cases hd'
  obtain ⟨chunk, t', hnx, hcne, hc, hpos⟩ := hpr (by omega)
  obtain ⟨s', hrun, hlog, hdev, hf', hstk, hst⟩ := payload_step hl hx1 he1 hf1 hu1 hd hnx 0
  obtain ⟨q, hq⟩ : ∃ q, x1.queued = q + 1 := ⟨x1.queued - 1, by omega⟩
  have hne : ∀ b, x1.s.c.log = a ++ .head h :: b → ∀ f u, .closed f u ∉ b := by
    intro b hb f u hm
    obtain ⟨b', hb', hne'⟩ := hu1
    rw [hb] at hb'
    have e : b = b' := by simpa using hb'
    exact (hne' _ (e ▸ hm)).2 f u rfl
  have hx2 := Transfers.payload x1 q d chunk t' s' 0 hx1 he1 hf1 hq hne hd hnx hrun
  have hclen : 0 < chunk.length := List.length_pos_iff.2 hcne
  have ok2 := transfers_ok hl hx2
  have hp2 : t'.pos ≤ content.length := ok2.pos
  have hu2 : Unfinished a h s'.c.log := by
    obtain ⟨b', hb', hne'⟩ := hu1
    refine ⟨b' ++ [.body chunk], by rw [hlog, hb']; simp, ?_⟩
    intro e he
    rcases List.mem_append.1 he with he | he
    · exact hne' e he
    · cases List.mem_singleton.1 he; simp
  by_cases hdone : t'.pos = content.length
  · rw [if_pos hdone] at hstk
    have h3 : s'.step (.tau 0) = some ⟨{ s'.c with st := .completed }.emit .completed, [.env, .completedRest] ++ x1.s.stack⟩ := by
      simp [Conf.step, hf', hstk, exec, Conn.complete, hst]
    have hx3 := Transfers.other _ _ _ (q + 0) hx2 (show Proper s' (.tau 0) from fun e => by cases e) (fun _ c e => by cases e) h3
      (fun hsent => by
        obtain ⟨d1, d2, e1, e2, e3⟩ := hsent
        have e1' : s'.c.dev = some d1 := e1
        have e2' : s'.c.dev = some d2 := e2
        rw [e1'] at e2'; cases e2'; omega) (fun _ => .inl rfl)
    obtain ⟨b', hb', hne'⟩ := id hu2
    obtain ⟨b, dd, k1, k2, k3, k4, k5⟩ := C33_exact_partial content bufferSize a h _ hl hx3
    have hl3 : (({ s'.c with st := .completed } : Conn).emit .completed).log = a ++ .head h :: (b' ++ [.completed]) := by
      simp [Conn.emit, hb']
    refine ⟨_, b', hx3, ?_, hl3, ?_⟩
    · show x.s.c.log <+: s'.c.log ++ [.completed]
      rw [hlog, hlog1, List.append_assoc]; exact List.prefix_append _ _
    · have hb := ok2.progress
      obtain ⟨b2, d2, m1, m2, m3, m4⟩ := hb
      have m1' : s'.c.log = a ++ .head h :: (b2 ++ d2) := m1
      have e : b2 ++ d2 = b' := by rw [hb'] at m1'; simpa using m1'.symm
      have hd2 : d2 = [] := by
        rcases m4 with ⟨h, -⟩ | ⟨⟨d', rfl⟩, -⟩ | ⟨f, u, d', rfl⟩
        · exact h
        · exact absurd rfl (hne' .completed (by rw [← e]; simp)).1
        · exact absurd rfl ((hne' (.closed f u) (by rw [← e]; simp)).2 f u)
      subst hd2
      rw [List.append_nil] at e
      subst e
      rw [m3]; show content.take t'.pos = content
      rw [hdone, List.take_length]
  · rw [if_neg hdone, List.nil_append] at hstk
    rw [ht1] at hpos
    obtain ⟨x', b, r1, r2, r3, r4⟩ := ih (content.length - t'.pos) (by omega) ⟨s', t', q⟩ rfl hx2 (by simpa [Conf.inEnv, hstk] using he1) hf' hu2
    refine ⟨x', b, r1, List.IsPrefix.trans ?_ r2, r3, r4⟩
    show x.s.c.log <+: s'.c.log
    rw [hlog, hlog1]; exact List.prefix_append _ _


/-! #### From the request to the transfer -/

theorem file_declared (ctype : Bytes) (n : Nat) (hn : n < 2 ^ 63) :
    declaredLength (-1) [⟨b!"Content-Type", ctype⟩, ⟨b!"Content-Length", decimal n⟩] = n := by
  have e : lastHeader [⟨b!"Content-Type", ctype⟩, ⟨b!"Content-Length", decimal n⟩] b!"content-length" = some ⟨b!"Content-Length", decimal n⟩ := by
    have h1 : decide (SameCI b!"Content-Type" b!"content-length") = false := by decide +kernel
    have h2 : decide (SameCI b!"Content-Length" b!"content-length") = true := by decide +kernel
    simp [lastHeader, List.filter, h1, h2]
  unfold declaredLength
  rw [e]
  show (qtToLongLong (digits 10 n)).getD (-1) = n
  rw [qtToLongLong_digits n hn]; rfl

/-- C33: when the handler decides to transfer a file, and the request is not a HEAD request, the head it writes announces the length of
the file and the transfer starts in a state the other theorems speak about. -/
theorem C33_start (fs : FileSystem) (dec md5 text : Bytes → Bytes) (pub : Bytes) (bufferSize : Nat) (s : Conf) (hr : Reach Proper s) (he : s.inEnv = true)
    (hf : s.c.fault = none) (hst : s.c.st = .sendingHeaders) (hq : NoWrites s.stack) (hm : s.c.req.method ≠ b!"HEAD")
    (head : Call) (content : Bytes) (bs : Nat) (hact : fileHandle fs dec md5 text pub bufferSize s.c.req = .transfer head content bs)
    (hlt : content.length < 2147483648) :
    fs.contents (pub ++ dec s.c.req.path) = some content ∧ bs = bufferSize ∧ bufferSize < content.length ∧
    ∃ (s' : Conf) (h : RespHead), s.run (.call head :: taus 3) = some s' ∧ h.status = 200 ∧ h.len = content.length ∧ head = .writeHeaders 200 h.headers ∧
      Transfers content bufferSize s.c.log h ⟨s', Transfer.create content bufferSize, 1⟩ ∧ s'.inEnv = true ∧ s'.c.fault = none ∧
      Unfinished s.c.log h s'.c.log := by
  obtain ⟨hc1, rfl, hgt, ctype, rfl⟩ : fs.contents (pub ++ dec s.c.req.path) = some content ∧ bs = bufferSize ∧ bufferSize < content.length ∧
      ∃ ctype, head = .writeHeaders 200 [⟨b!"Content-Type", ctype⟩, ⟨b!"Content-Length", decimal content.length⟩] := by
    simp only [fileHandle] at hact
    split at hact
    · cases hact
    split at hact
    · cases hact
    split at hact
    · cases hact
    split at hact
    · cases hact
    split at hact
    · cases hact
    · rename_i ct hct
      split at hact
      · split at hact <;> cases hact
      · cases hact
        exact ⟨hct, rfl, by omega, _, rfl⟩
  refine ⟨hc1, rfl, hgt, ?_⟩
  have hdl := file_declared ctype content.length (by omega)
  generalize hhs : ([⟨b!"Content-Type", ctype⟩, ⟨b!"Content-Length", decimal content.length⟩] : Headers) = hs at hdl hact ⊢
  obtain ⟨ph, hruns, hne, hph⟩ := reach_phase hr he hf
  rcases hph with ⟨hset, hcore⟩ | ⟨-, e | ⟨e, -⟩⟩
  rotate_left
  · rw [hst] at e; cases e
  · rw [hst] at e; cases e
  obtain ⟨rfl, h2, h3, h4, h5, h6, h7⟩ := (settled_sendH hst).1 hset
  obtain ⟨d, hd⟩ := Option.isSome_iff_exists.1 (hcore.dev (by rw [hst]; simp) (by rw [hst]; simp))
  have hbuf : s.c.respBuf = [] := hcore.resp (inEnv_head he).2
  have hsome : (buildHead [] (s.c.req.version == b!"HTTP/1.1") s.c.req (-1) false 200 hs).isSome = true := by
    unfold buildHead
    simp only [List.nil_append]
    have sp := scan_spec hs { out := statusLine s.c.req 200, len := -1 }
    rw [sp.len, lengthLine_isSome _ (by rw [hdl]; omega)]
    rfl
  obtain ⟨h, hh⟩ := Option.isSome_iff_exists.1 hsome
  have hspec := head_spec hh
  have hlen : h.len = content.length := by rw [hspec.len, hdl]
  have hch : h.chunked = false := by
    cases hc : h.chunked with
    | false => rfl
    | true => have := (hspec.chunked.1 hc).2.1; omega
  have e1 : exec 0 (.writeHeaders 200 hs) s.c = ({ s.c with status := 200, respBuf := h.bytes, respLen := h.len, chunked := h.chunked, keepAlive := h.keepAlive, dev := some { d with pending := d.pending + h.bytes.length }, log := s.c.log ++ [.head h] }, [.sendContent]) := by
    simp only [exec, Conn.writeHeaders]
    rw [if_neg (by simp [hst])]
    simp only [readView_valid h6, hbuf, h3, h4, h5]
    rw [hh]
    simp only [Conn.write, hd]
    rfl
  generalize hc1 : ({ s.c with status := 200, respBuf := h.bytes, respLen := h.len, chunked := h.chunked, keepAlive := h.keepAlive, dev := some { d with pending := d.pending + h.bytes.length }, log := s.c.log ++ [.head h] } : Conn) = c1 at e1
  have e2 : exec 0 .sendContent c1 = ({ c1 with st := .sendingContent, respBuf := [] }, [.sendContentRest]) := by
    have v : c1.viewsValid = true := by rw [← hc1]; exact h6
    have s1 : c1.st = .sendingHeaders := by rw [← hc1]; exact hst
    have l1 : c1.respLen = content.length := by rw [← hc1]; exact hlen
    have m1 : c1.req.method ≠ b!"HEAD" := by rw [← hc1]; exact hm
    simp only [exec, Conn.sendContent]
    rw [if_neg (by simp [s1]), if_neg (by rw [l1]; omega)]
    have hv : ({ c1 with st := .sendingContent, respBuf := [] } : Conn).readView = { c1 with st := .sendingContent, respBuf := [] } := readView_valid v
    rw [hv, if_neg (by simpa [Conn.isHead] using m1)]
  generalize hc2 : ({ c1 with st := .sendingContent, respBuf := [] } : Conn) = c2 at e2
  have e3 : exec 0 .sendContentRest c2 = (c2, []) := by
    have l2 : c2.respLen = content.length := by rw [← hc2, ← hc1]; exact hlen
    simp only [exec, Conn.sendContentRest]
    rw [if_neg (by rw [l2]; omega)]
  have f1 : c1.fault = none := by rw [← hc1]; exact hf
  have f2 : c2.fault = none := by rw [← hc2]; exact f1
  have hlog2 : c2.log = s.c.log ++ [.head h] := by rw [← hc2, ← hc1]
  have hrun : s.run (.call (.writeHeaders 200 hs) :: taus 3) = some ⟨c2, s.stack⟩ := by
    show s.run (.call (.writeHeaders 200 hs) :: .tau 0 :: [.tau 0, .tau 0]) = _
    rw [run_call he hf]
    simp only [Call.instr, e1, List.singleton_append]
    rw [run_tau (by simp) f1, e2, List.singleton_append, run_tau (by simp) f2, e3]
    rfl
  have he2 : Conf.inEnv ⟨c2, s.stack⟩ = true := by simpa [Conf.inEnv] using he
  have hreach : Reach Proper ⟨c2, s.stack⟩ := by
    have st1 : s.step (.call (.writeHeaders 200 hs)) = some ⟨s.c, .writeHeaders 200 hs :: s.stack⟩ := by simp [Conf.step, hf, he, Call.instr]
    have st2 : Conf.step ⟨s.c, .writeHeaders 200 hs :: s.stack⟩ (.tau 0) = some ⟨c1, .sendContent :: s.stack⟩ := by simp [Conf.step, hf, e1]
    have st3 : Conf.step ⟨c1, .sendContent :: s.stack⟩ (.tau 0) = some ⟨c2, .sendContentRest :: s.stack⟩ := by simp [Conf.step, f1, e2]
    have st4 : Conf.step ⟨c2, .sendContentRest :: s.stack⟩ (.tau 0) = some ⟨c2, s.stack⟩ := by simp [Conf.step, f2, e3]
    exact .step _ _ _ (.step _ _ _ (.step _ _ _ (.step _ _ _ hr (fun e => by cases e) st1) (fun e => by cases e) st2) (fun e => by cases e) st3) (fun e => by cases e) st4
  exact ⟨⟨c2, s.stack⟩, h, hrun, hspec.code, hlen, by rw [hspec.hdrs], .start _ hreach he2 f2 hlog2 hq, he2, f2, [], hlog2, by intro e he; cases he⟩


/-! #### A HEAD request for a large file -/

/-- One file of ten bytes. -/
def demoFs (dir file : Bytes) (content : Bytes) : FileSystem :=
  { present := fun p => p == dir ++ file, canonical := fun p => p, isFile := fun p => p == dir ++ file, contents := fun p => if p = dir ++ file then some content else none }

def headFileStart : List Label :=
  [.init, .recv b!"HEAD /f HTTP/1.1\r\n\r\nGET /g HTTP/1.1\r\n\r\n", .call .processInput] ++ taus 3

/-- The handler of the HEAD request writes the head; that completes the request, and within the same call the GET request is handed out,
whose handler starts a chunked response and returns. -/
def headFileRest (head : Call) : List Label :=
  [.call head] ++ taus 3 ++ [.ret] ++ taus 2 ++ [.ret] ++ taus 4 ++
  [.call (.writeHeaders 200 [⟨b!"Transfer-Encoding", b!"chunked"⟩])] ++ taus 3 ++ [.ret] ++ taus 1

/-- C33 is false of the code for HEAD requests: the transfer is started although the request is completed, and writes the file into
the response to the next request (for which nobody wrote any content). -/
theorem C33_violation :
    ∃ (s0 s1 s2 : Conf) (head : Call) (chunk : Bytes) (t' : Transfer) (d : Dev), Conf.runIf Gentle {} headFileStart = some s0 ∧ s0.c.req.method = b!"HEAD" ∧
      fileHandle (demoFs b!"/srv/pub" b!"/f" b!"0123456789") id id id b!"/srv/pub" 4 s0.c.req = .transfer head b!"0123456789" 4 ∧
      Conf.runIf Gentle s0 (headFileRest head) = some s1 ∧ s1.c.dev = some d ∧
      (Transfer.create b!"0123456789" 4).next d.pending = some (chunk, t') ∧
      Conf.runIf Gentle s1 [.call (.writeContent chunk), .tau 0] = some s2 ∧
      ∃ a h, (readys a).map (·.uri) = [b!"/f", b!"/g"] ∧ s2.c.log = a ++ [.head h, .chunk b!"0123456789"] := by
  have h : (match Conf.runIf Gentle {} headFileStart with
    | none => false
    | some s0 => match fileHandle (demoFs b!"/srv/pub" b!"/f" b!"0123456789") id id id b!"/srv/pub" 4 s0.c.req with
      | .transfer head content bs => match Conf.runIf Gentle s0 (headFileRest head) with
        | none => false
        | some s1 => match s1.c.dev with
          | none => false
          | some d => match (Transfer.create b!"0123456789" 4).next d.pending with
            | none => false
            | some (chunk, t') => match Conf.runIf Gentle s1 [.call (.writeContent chunk), .tau 0] with
              | none => false
              | some s2 => content == b!"0123456789" && bs == 4 && s0.c.req.method == b!"HEAD" &&
                (match s2.c.log.reverse with
                | .chunk c :: .head h :: a => c == b!"0123456789" && (readys a.reverse).map (·.uri) == [b!"/f", b!"/g"]
                | _ => false)
      | _ => false) = true := by decide +kernel
  split at h
  · cases h
  rename_i s0 h0
  split at h
  rotate_left
  · cases h
  rename_i head content bs hact
  split at h
  · cases h
  rename_i s1 h1
  split at h
  · cases h
  rename_i d hd
  split at h
  · cases h
  rename_i chunk t' hn
  split at h
  · cases h
  rename_i s2 h2
  simp only [Bool.and_eq_true, beq_iff_eq] at h
  obtain ⟨⟨⟨rfl, rfl⟩, hm⟩, hl⟩ := h
  split at hl
  · rename_i c hh a hlog
    simp only [Bool.and_eq_true, beq_iff_eq] at hl
    obtain ⟨rfl, hr⟩ := hl
    refine ⟨s0, s1, s2, head, chunk, t', d, h0, hm, hact, h1, hd, hn, h2, a.reverse, hh, hr, ?_⟩
    have := congrArg List.reverse hlog
    simpa using this
  · cases hl

/-! ### C32 -/

/-- C32: whatever the request path: a file is only served, or its existence betrayed by a 403, if it is an existing regular file whose
canonical path starts with the public path; and what is sent is the content of the file at the requested path. -/
theorem C32_served (fs : FileSystem) (dec md5 text : Bytes → Bytes) (pub : Bytes) (bufferSize : Nat) (r : ReqView)
    (h : fileHandle fs dec md5 text pub bufferSize r ≠ .pass) :
    pub ≠ [] ∧ fs.present (pub ++ dec r.path) = true ∧ fs.isFile (pub ++ dec r.path) = true ∧ pub <+: fs.canonical (pub ++ dec r.path) := by
  simp only [fileHandle] at h
  split at h
  · exact absurd rfl h
  rename_i h0
  split at h
  · exact absurd rfl h
  rename_i h1
  split at h
  · exact absurd rfl h
  rename_i h2
  split at h
  · exact absurd rfl h
  rename_i h3
  refine ⟨h0, by simpa using h1, by simpa using h3, List.isPrefixOf_iff_prefix.1 (by simpa using h2)⟩

/-- C32, and nothing else is refused: the handler answers exactly the requests for regular files whose canonical path starts with the public path (as text:
`C32_violation`). -/
theorem C32_exactly (fs : FileSystem) (dec md5 text : Bytes → Bytes) (pub : Bytes) (bufferSize : Nat) (r : ReqView) :
    fileHandle fs dec md5 text pub bufferSize r ≠ .pass ↔
      pub ≠ [] ∧ fs.present (pub ++ dec r.path) = true ∧ fs.isFile (pub ++ dec r.path) = true ∧ pub <+: fs.canonical (pub ++ dec r.path) := by
  refine ⟨C32_served fs dec md5 text pub bufferSize r, ?_⟩
  rintro ⟨h0, h1, h2, h3⟩
  simp only [fileHandle]
  rw [if_neg h0, if_neg (by simp [h1]), if_neg (by simp [List.isPrefixOf_iff_prefix.2 h3]), if_neg (by simp [h2])]
  cases fs.contents (pub ++ dec r.path) with
  | none => simp
  | some content =>
    dsimp only
    split
    · split <;> simp
    · simp

/-- C32 as stated holds if no entry beside the public directory has a name that begins with the name of the public directory, and the
public directory itself is not a file. -/
theorem C32_inside_partial (fs : FileSystem) (dec md5 text : Bytes → Bytes) (pub : Bytes) (bufferSize : Nat) (r : ReqView)
    (hsib : ∀ p rest, fs.isFile p = true → fs.canonical p = pub ++ rest → ∃ rest', rest = b!"/" ++ rest')
    (h : fileHandle fs dec md5 text pub bufferSize r ≠ .pass) : Inside pub (fs.canonical (pub ++ dec r.path)) := by
  obtain ⟨-, -, h2, rest, h3⟩ := C32_served fs dec md5 text pub bufferSize r h
  obtain ⟨rest', rfl⟩ := hsib _ rest h2 h3.symm
  exact ⟨rest', by rw [← h3]; simp⟩

/-- A file system with the directories `/srv/pub` and `/srv/pub-secret`. -/
def siblingFs : FileSystem :=
  { present := fun p => p == b!"/srv/pub/../pub-secret/x" || p == b!"/srv/pub-secret/x"
    canonical := fun p => if p = b!"/srv/pub/../pub-secret/x" then b!"/srv/pub-secret/x" else p
    isFile := fun p => p == b!"/srv/pub/../pub-secret/x" || p == b!"/srv/pub-secret/x"
    contents := fun p => if p = b!"/srv/pub/../pub-secret/x" ∨ p = b!"/srv/pub-secret/x" then some b!"secret" else none }

/-- C32 is false of the code: with the public directory `/srv/pub` a request for `/../pub-secret/x` is answered with the content of
a file outside it. -/
theorem C32_violation : ∃ (fs : FileSystem) (r : ReqView) (hs : Headers), r.path = b!"/../pub-secret/x" ∧
    fileHandle fs id id id b!"/srv/pub" 100 r = .answer (.writeResponse 200 hs b!"secret") ∧
    fs.canonical (b!"/srv/pub" ++ r.path) = b!"/srv/pub-secret/x" ∧ ¬ Inside b!"/srv/pub" (fs.canonical (b!"/srv/pub" ++ r.path)) := by
  refine ⟨siblingFs, { method := b!"GET", path := b!"/../pub-secret/x" }, [⟨b!"Content-Type", getMimeTypeForFilename b!"/../pub-secret/x"⟩, ⟨b!"ETag", b!"secret"⟩], rfl, by decide +kernel, by decide +kernel, ?_⟩
  have e : siblingFs.canonical (b!"/srv/pub" ++ b!"/../pub-secret/x") = b!"/srv/pub-secret/x" := by decide +kernel
  rintro ⟨rest, h⟩
  rw [e] at h
  simp at h

/-- The hypotheses of `C32_inside_partial` are met by a file system with one public file, which is served. -/
example : (∀ p rest, (demoFs b!"/srv/pub" b!"/f" b!"abc").isFile p = true → (demoFs b!"/srv/pub" b!"/f" b!"abc").canonical p = b!"/srv/pub" ++ rest →
      ∃ rest', rest = b!"/" ++ rest') ∧
    fileHandle (demoFs b!"/srv/pub" b!"/f" b!"abc") id id id b!"/srv/pub" 100 { method := b!"GET", path := b!"/f" } ≠ .pass := by
  refine ⟨?_, by decide +kernel⟩
  intro p rest h1 h2
  simp only [demoFs, beq_iff_eq] at h1 h2
  rw [h1] at h2
  exact ⟨b!"f", by simpa using h2.symm⟩

/-! ### C53: what is answered for a small file -/

/-- The outcome of a request for an existing readable file inside the public directory. -/
structure Readable (fs : FileSystem) (dec : Bytes → Bytes) (pub : Bytes) (r : ReqView) (content : Bytes) : Prop where
  dir : pub ≠ []
  present : fs.present (pub ++ dec r.path) = true
  isFile : fs.isFile (pub ++ dec r.path) = true
  inside : pub <+: fs.canonical (pub ++ dec r.path)
  content : fs.contents (pub ++ dec r.path) = some content

/-- C53: a file that fits in the buffer is answered by one call: 304 without content if the client's `If-None-Match` is the digest of
the content, otherwise 200 with the whole content, its digest as `ETag` and a type determined by the path. -/
theorem C53_small (fs : FileSystem) (dec md5 text : Bytes → Bytes) (pub : Bytes) (bufferSize : Nat) (r : ReqView) (content : Bytes)
    (h : Readable fs dec pub r content) (hs : content.length ≤ bufferSize) :
    (getFieldValue r.headers b!"If-None-Match" = md5 content →
      fileHandle fs dec md5 text pub bufferSize r = .answer (.writeResponse 304 [] [])) ∧
    (getFieldValue r.headers b!"If-None-Match" ≠ md5 content → fileHandle fs dec md5 text pub bufferSize r =
      .answer (.writeResponse 200 [⟨b!"Content-Type", getMimeTypeForFilename (dec r.path)⟩, ⟨b!"ETag", md5 content⟩] content)) := by
  have hp : pub.isPrefixOf (fs.canonical (pub ++ dec r.path)) = true := List.isPrefixOf_iff_prefix.2 h.inside
  constructor <;> intro hm
  · simp [fileHandle, h.dir, h.present, h.isFile, hp, h.content, hs, hm]
  · simp [fileHandle, h.dir, h.present, h.isFile, hp, h.content, hs, hm]

/-- C53: the next request with the `ETag` the client got is answered with 304, as long as the file does not change. -/
theorem C53_revalidate (fs : FileSystem) (dec md5 text : Bytes → Bytes) (pub : Bytes) (bufferSize : Nat) (r r2 : ReqView) (content : Bytes)
    (h : Readable fs dec pub r content) (hs : content.length ≤ bufferSize) (hdrs : Headers) (ct : Bytes)
    (h1 : fileHandle fs dec md5 text pub bufferSize r = .answer (.writeResponse 200 hdrs ct))
    (hpath : r2.path = r.path) (hinm : getFieldValue r2.headers b!"If-None-Match" = getFieldValue hdrs b!"ETag") :
    ct = content ∧ fileHandle fs dec md5 text pub bufferSize r2 = .answer (.writeResponse 304 [] []) := by
  obtain ⟨k1, k2⟩ := C53_small fs dec md5 text pub bufferSize r content h hs
  by_cases hm : getFieldValue r.headers b!"If-None-Match" = md5 content
  · rw [k1 hm] at h1; cases h1
  · rw [k2 hm] at h1
    simp only [FileAction.answer.injEq, Call.writeResponse.injEq] at h1
    obtain ⟨-, rfl, rfl⟩ := h1
    have h2 : Readable fs dec pub r2 content := by
      refine ⟨h.dir, ?_, ?_, ?_, ?_⟩ <;> rw [hpath]
      · exact h.present
      · exact h.isFile
      · exact h.inside
      · exact h.content
    refine ⟨rfl, (C53_small fs dec md5 text pub bufferSize r2 content h2 hs).1 ?_⟩
    rw [hinm]
    have a1 : asciiEqualsCI b!"Content-Type" b!"ETag" = false := by decide +kernel
    have a2 : asciiEqualsCI b!"ETag" b!"ETag" = true := by decide +kernel
    simp [getFieldValue, a1, a2]

/-- C53: a file that cannot be opened is answered with 403. -/
theorem C53_unreadable (fs : FileSystem) (dec md5 text : Bytes → Bytes) (pub : Bytes) (bufferSize : Nat) (r : ReqView)
    (h0 : pub ≠ []) (h1 : fs.present (pub ++ dec r.path) = true) (h2 : fs.isFile (pub ++ dec r.path) = true)
    (h3 : pub <+: fs.canonical (pub ++ dec r.path)) (h4 : fs.contents (pub ++ dec r.path) = none) :
    ∃ hs ct, fileHandle fs dec md5 text pub bufferSize r = .answer (.writeResponse 403 hs ct) := by
  have hp : pub.isPrefixOf (fs.canonical (pub ++ dec r.path)) = true := List.isPrefixOf_iff_prefix.2 h3
  refine ⟨[], b!"The requested resource '" ++ text (dec r.path) ++ b!"' is not accessible", ?_⟩
  simp [fileHandle, h0, h1, h2, hp, h4]


/-- The hypotheses of `C33_start` are met: a GET request for a file of ten bytes with a buffer of four (hence those of the
other theorems about transfers, by `C33_start`). -/
example : ∃ s, Reach Proper s ∧ s.inEnv = true ∧ s.c.fault = none ∧ s.c.st = .sendingHeaders ∧ NoWrites s.stack ∧ s.c.req.method ≠ b!"HEAD" ∧
    ∃ head, fileHandle (demoFs b!"/srv/pub" b!"/f" b!"0123456789") id id id b!"/srv/pub" 4 s.c.req = .transfer head b!"0123456789" 4 := by
  obtain ⟨t, h1, h2⟩ := exists_of_endsIn (allowed := Gentle)
    (ls := [.init, .recv b!"GET /f HTTP/1.1\r\n\r\n", .call .processInput] ++ taus 3)
    (p := fun s => s.inEnv && s.c.fault == none && s.c.st == .sendingHeaders && s.stack == [.env] && s.c.req.method == b!"GET" && s.c.req.path == b!"/f")
    (by decide +kernel)
  simp only [Bool.and_eq_true, beq_iff_eq] at h2
  obtain ⟨⟨⟨⟨⟨k1, k2⟩, k3⟩, k4⟩, k5⟩, k6⟩ := h2
  refine ⟨t, reach_mono (fun _ _ h => h.1) h1, k1, k2, k3, ?_, ?_,
    .writeHeaders 200 [⟨b!"Content-Type", getMimeTypeForFilename b!"/f"⟩, ⟨b!"Content-Length", decimal 10⟩], ?_⟩
  · rw [k4]; simp [NoWrites]
  · rw [k5]; decide
  · simp only [fileHandle, k6]
    rfl

end Pillow.Props
