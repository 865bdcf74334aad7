import Verif.Lemmas.Depth
import Verif.Props.Response
import Verif.Props.ThinParser
set_option linter.unusedSimpArgs false
set_option linter.unusedVariables false
/-!
# C85: every call gives control back, and what it costs to nest
-/
namespace Pillow.Props
open Pillow Pillow.Spec Pillow.Depth

/-! ## Control comes back -/

/-- C85: whatever was called in whatever state, after at most 34 steps foreign code is in control: the call has returned or
a signal has been emitted. -/
theorem C85_returns {allowed : Conf → Label → Prop} (s : Conf) (hr : Reach allowed s) (ks : List Nat) (t : Conf) (h : s.run (ks.map .tau) = some t) : ks.length ≤ 34 := by
  have key : ∀ (ks : List Nat) (s : Conf), s.run (ks.map .tau) = some t → ks.length ≤ weight 0 s.c.st (seg s.stack) := by
    intro ks
    induction ks with
    | nil => intro s _; simp
    | cons k ks ih =>
      intro s h
      rw [List.map_cons, Conf.run] at h
      cases hs : s.step (.tau k) with
      | none => rw [hs] at h; cases h
      | some s' =>
        rw [hs] at h
        have := ih s' h
        have := tau_seg hs
        simp only [List.length_cons]; omega
  have := key ks s h
  have := (lightTop_reach hr).1
  omega

/-- C85: it does get there, unless the number of bytes of a response does not fit into the head (C24). -/
theorem C85_arrives {allowed : Conf → Label → Prop} (s : Conf) (hr : Reach allowed s) : ∃ n t, n ≤ 34 ∧ s.run (taus n) = some t ∧ (t.inEnv = true ∨ t.c.fault ≠ none) := by
  have key : ∀ (n : Nat) (s : Conf), weight 0 s.c.st (seg s.stack) ≤ n → ∃ m t, m ≤ n ∧ s.run (taus m) = some t ∧ (t.inEnv = true ∨ t.c.fault ≠ none) := by
    intro n
    induction n with
    | zero =>
      intro s h
      refine ⟨0, s, Nat.le_refl _, rfl, ?_⟩
      by_cases he : s.inEnv = true
      · exact .inl he
      · by_cases hf : s.c.fault = none
        · exfalso
          cases hst : s.stack with
          | nil => exact he (by simp [Conf.inEnv, hst])
          | cons i rest =>
            have hi : i ≠ .env := by rintro rfl; exact he (by simp [Conf.inEnv, hst])
            rw [hst, seg_cons i hi] at h
            have := exec_weight 0 0 i hi s.c
            simp only [weight] at h
            omega
        · exact .inr hf
    | succ n ih =>
      intro s h
      by_cases he : s.inEnv = true
      · exact ⟨0, s, by omega, rfl, .inl he⟩
      · by_cases hf : s.c.fault = none
        · cases hst : s.stack with
          | nil => exact absurd (by simp [Conf.inEnv, hst]) he
          | cons i rest =>
            have hi : i ≠ .env := by rintro rfl; exact he (by simp [Conf.inEnv, hst])
            have hs : s.step (.tau 0) = some ⟨(exec 0 i s.c).1, (exec 0 i s.c).2 ++ rest⟩ := by
              cases i <;> first | exact absurd rfl hi | simp [Conf.step, hst, hf]
            have hw := tau_seg hs
            simp only at hw
            obtain ⟨m, t, h1, h2, h3⟩ := ih ⟨(exec 0 i s.c).1, (exec 0 i s.c).2 ++ rest⟩ (by simp only; omega)
            refine ⟨m + 1, t, by omega, ?_, h3⟩
            show Conf.run s (.tau 0 :: taus m) = _
            rw [Conf.run, hs]; exact h2
        · exact ⟨0, s, by omega, rfl, .inr hf⟩
  exact key 34 s (lightTop_reach hr).1

/-- C85: if from now on the slots do nothing but return, the event loop is in control again after a number of steps and
returns that is known now; no input can keep the connection busy. -/
theorem C85_home (s : Conf) : ∃ n, ∀ ls t, (∀ l ∈ ls, Onward l) → s.run ls = some t → ls.length ≤ n ∧
    (t.stack = [] ∨ t.c.fault ≠ none ∨ ∃ l u, Onward l ∧ t.step l = some u) := by
  refine ⟨weight 1 s.c.st s.stack, ?_⟩
  intro ls
  induction ls generalizing s with
  | nil =>
    intro t _ h
    cases h
    refine ⟨by simp, ?_⟩
    cases hst : s.stack with
    | nil => exact .inl rfl
    | cons i rest =>
      right
      by_cases hf : s.c.fault = none
      · right
        by_cases hi : i = .env
        · subst hi; exact ⟨.ret, _, .inr rfl, by simp only [Conf.step, hst, hf]; rfl⟩
        · exact ⟨.tau 0, ⟨(exec 0 i s.c).1, (exec 0 i s.c).2 ++ rest⟩, .inl ⟨0, rfl⟩, by cases i <;> first | exact absurd rfl hi | simp [Conf.step, hst, hf]⟩
      · exact .inl hf
  | cons l ls ih =>
    intro t hl h
    rw [Conf.run] at h
    cases hs : s.step l with
    | none => rw [hs] at h; cases h
    | some s' =>
      rw [hs] at h
      obtain ⟨h1, h2⟩ := ih s' t (fun l h => hl l (List.mem_cons_of_mem _ h)) h
      refine ⟨?_, h2⟩
      have hw : weight 1 s'.c.st s'.stack + 1 ≤ weight 1 s.c.st s.stack := by
        rcases hl l (by simp) with ⟨k, rfl⟩ | rfl
        · exact tau_weight 1 hs
        · obtain ⟨rest, e, rfl⟩ := step_ret hs
          rw [e]
          have := weight_le 1 s.c.st rest
          show weight 1 s.c.st rest + 1 ≤ 1 + wt 1 rest
          omega
      simp only [List.length_cons]; omega

/-! ## Depth -/

/-- C85: nesting comes from calls only: since the event loop was last in control, no more signals are being handled one inside
the other than calls were made. -/
theorem C85_calls (s t : Conf) (n : Nat) (hs : s.stack = []) (h : Calls s n t) : depth t ≤ n := by
  have := open_calls h
  rw [hs] at this
  have := le_open t.stack
  have h0 : open_ [] = 0 := rfl
  unfold depth; omega

/-- C85: if slots do nothing but answer requests, then nesting comes from requests only: since the event loop was last in
control, at most two more signals are being handled one inside the other than requests were handed out.  Missing: a
bound that does not depend on what the client sends (`C85_violation`). -/
theorem C85_depth_partial (s t : Conf) (hr : Reach Gentle s) (hs : s.stack = []) (h : Later SlotsAnswer s t) :
    depth t ≤ ((readys t.c.log).length - (readys s.c.log).length) + 2 := by
  obtain ⟨-, h2, h3⟩ := nest_later h hr hs
  have := nest_depth h2
  unfold depth; omega

/-! ## The client decides how deep it gets -/

/-- A request without headers. -/
def plainHead : ReqHead := ⟨b!"GET", .origin b!"/" none, none, b!"1", b!"1", []⟩
def plainText : Bytes := b!"GET / HTTP/1.1\r\n\r\n"
/-- The same request `n` times. -/
def flood (n : Nat) : Bytes := (List.replicate n plainText).flatten

theorem plain_render : plainHead.render = plainText := by decide +kernel
theorem plain_wf : plainHead.Wf where
  method_len := by decide
  method_chars := by decide
  target := by
    exact ⟨⟨[], rfl, .nil⟩, fun q hq => by cases hq⟩
  fragment := by intro f hf; cases hf
  major := by decide
  minor := by decide
  headers := by intro h hh; cases hh

theorem plain_ok : Acceptable plainHead 0 where
  wf := plain_wf
  short := by rw [plain_render]; decide
  announced := by decide
  small := by decide

theorem flood_succ (n : Nat) : flood (n + 1) = plainText ++ flood n := by simp [flood, List.replicate_succ]

theorem flood_requests : ∀ (i n : Nat), i ≤ n → Requests (flood n) (List.replicate i (plainHead, [])) (flood (n - i))
  | 0, n, _ => .nil _
  | i + 1, 0, h => by omega
  | i + 1, n + 1, h => by
    have := Requests.cons plainHead [] (flood n) _ _ plain_ok (flood_requests i n (by omega))
    rw [plain_render, List.append_nil, ← flood_succ] at this
    rw [List.replicate_succ, show n + 1 - (i + 1) = n - i by omega]
    exact this

/-- How the stream is cut. -/
theorem flood_cut {n : Nat} {reqs : List (ReqHead × Bytes)} {rest : Bytes} (h : Requests (flood n) reqs rest) :
    reqs.length ≤ n ∧ rest = flood (n - reqs.length) ∧ shownAll reqs = List.replicate reqs.length (plainHead.shown []) := by
  have h0 : ¬ Complete (flood (n - n)) := by
    rintro ⟨hd, ct, r, e, ha⟩
    rw [Nat.sub_self] at e
    have hl := congrArg List.length e
    have := ha.wf.method_len
    simp only [flood, List.replicate_zero, List.flatten_nil, List.length_nil, List.length_append, ReqHead.render] at hl
    omega
  have hle : reqs.length ≤ n := by
    rcases Requests.unique h (flood_requests n n (Nat.le_refl _)) with ⟨e, -⟩ | ⟨-, e, -⟩ | ⟨-, -, e⟩
    · have := congrArg List.length e; simp at this; omega
    · simp at e; omega
    · exact absurd e h0
  refine ⟨hle, ?_⟩
  rcases Requests.unique h (flood_requests reqs.length n hle) with ⟨e, e'⟩ | ⟨-, e, -⟩ | ⟨-, e, -⟩
  · exact ⟨e', by show reqs.map _ = _; rw [show reqs.map (fun q => q.1.shown q.2) = (List.replicate reqs.length (plainHead, [])).map (fun q => q.1.shown q.2) from e, List.map_replicate]⟩
  · simp at e
  · simp at e

/-- Reading the next request. -/
theorem read_next (c : Conn) (d : Dev) (p0 : Parser) (rest : List Instr) (more : Bytes) (hf : c.fault = none) (hst : c.st = .receivingHeaders) (hp : c.parser = p0.init) (hd : c.dev = some d)
    (hb : c.buf ++ d.inp = plainText ++ more) (hr : c.refs = []) (hcl : c.clen = 0) :
    ∃ c', Conf.run ⟨c, .processInput :: rest⟩ (taus 3) = some ⟨c', .env :: rest⟩ ∧ c'.fault = none ∧ c'.st = .sendingHeaders ∧ unread c' = [] ∧ c'.log = c.log ++ [.ready c'.req] := by
  have hbuf : (c.fill d).buf = plainHead.render ++ more := by rw [plain_render]; exact hb
  have hne : (c.fill d).buf ≠ [] := by rw [hbuf, plain_render]; simp [plainText]
  obtain ⟨hpar, hnr⟩ := finished_parser p0 plainHead plain_wf more
  have hparse : (c.fill d).parse = { c.fill d with parser := p0.init.execute (plainHead.render ++ more) 0, refs := [] } := by
    unfold Conn.parse
    simp only []
    rw [if_neg hne, show (c.fill d).parser = p0.init from hp, hbuf, show (c.fill d).refs = [] from hr]
    rw [List.nil_append, show p0.init.nread = 0 from rfl, hpar.fields]
    rfl
  generalize hq : p0.init.execute (plainHead.render ++ more) 0 = q at hparse hpar hnr
  generalize hc1 : ({ c.fill d with parser := q, refs := [] } : Conn) = c1 at hparse
  have e1 : exec 0 .processInput c = (c1, [.recvContent]) := by
    show c.processInput = _
    unfold Conn.processInput
    rw [if_neg (by rw [hst]; simp), hd]
    simp only []
    rw [if_pos (show (c.fill d).st = .receivingHeaders from hst), hparse]
    have q1 : c1.parser = q := by rw [← hc1]
    rw [q1, if_neg, if_pos]
    · simp [Parser.isFinished, hpar.cs]
    · rintro (h | h)
      · rw [hnr, plain_render] at h; revert h; decide
      · simp [Parser.hasError, hpar.cs] at h
  have s1 : c1.st = .receivingHeaders := by rw [← hc1]; exact hst
  have r1 : c1.refs = [] := by rw [← hc1]
  have l1 : c1.clen = 0 := by rw [← hc1]; exact hcl
  have f1 : c1.fault = none := by rw [← hc1]; exact hf
  have d1 : unread c1 = [] := by rw [← hc1]; rfl
  have g1 : c1.log = c.log := by rw [← hc1]; rfl
  obtain ⟨c2, e2, s2, f2, d2, g2⟩ : ∃ c2, exec 0 .recvContent c1 = (c2, [.sendHeaders]) ∧ c2.st = .receivingContent ∧ c2.fault = none ∧ unread c2 = [] ∧ c2.log = c.log := by
    have ha : ({ c1 with st := CState.receivingContent } : Conn).setup.announced (contentLengthIndex c1.buf c1.refs) = (0, true) := by
      rw [r1]
      show ((c1.clen : Int), true) = _
      rw [l1]
    refine ⟨{ ({ c1 with st := CState.receivingContent } : Conn).setup with clen := 0 }, ?_, rfl, f1, d1, g1⟩
    show c1.recvContent = _
    unfold Conn.recvContent
    rw [if_neg (by rw [s1]; simp)]
    simp only [ha]
    rw [if_neg (by simp), if_neg (by simp [maxContentLength]), if_neg (by simp)]
  obtain ⟨c3, e3, s3, f3, d3, g3⟩ : ∃ c3, exec 0 .sendHeaders c2 = (c3, [.env]) ∧ c3.st = .sendingHeaders ∧ c3.fault = none ∧ unread c3 = [] ∧ c3.log = c2.log ++ [.ready c3.req] := by
    refine ⟨c2.sendHeaders.1, ?_, ?_, ?_, ?_, ?_⟩
    · show c2.sendHeaders = _
      unfold Conn.sendHeaders; rw [if_neg (by rw [s2]; simp)]
    all_goals
      unfold Conn.sendHeaders; rw [if_neg (by rw [s2]; simp)]
      simp only [Conn.emit]
    · split <;> rfl
    · split <;> exact f2
    · split <;> exact d2
    · split <;> rfl
  refine ⟨c3, ?_, f3, s3, d3, by rw [g3, g2]⟩
  show Conf.run _ [.tau 0, .tau 0, .tau 0] = _
  rw [Props.run_tau (by simp) hf, e1]
  simp only [List.cons_append, List.nil_append]
  rw [Props.run_tau (by simp) f1, e2]
  simp only [List.cons_append, List.nil_append]
  rw [Props.run_tau (by simp) f2, e3]
  rfl

/-- The head of the answer. -/
def plainAnswer : RespHead := (buildHead [] true (plainHead.shown []) 0 false 200 []).getD default

theorem plainAnswer_built : buildHead [] true (plainHead.shown []) 0 false 200 [] = some plainAnswer := by decide +kernel
theorem plainAnswer_keeps : plainAnswer.keepAlive = true := by decide +kernel
theorem plainAnswer_len : plainAnswer.len = 0 := by decide +kernel
theorem plainAnswer_pos : 0 < plainAnswer.bytes.length := by decide +kernel

/-- Answering a request and reading the next one, without returning from the slot. -/
theorem answer_next (c : Conn) (d : Dev) (rest : List Instr) (tail more : Bytes) (hf : c.fault = none) (hst : c.st = .sendingHeaders) (hd : c.dev = some d) (hin : d.inp = [])
    (hb : c.respBuf = []) (h11 : c.http11 = true) (hch : c.chunked = false) (hreq : c.req = plainHead.shown []) (hv : c.viewsValid = true)
    (hl : (c.buf.length : Int) - c.parser.bodyStart - c.clen = tail.length) (ht : c.buf.drop (c.buf.length - tail.length) = tail) (hm : tail = plainText ++ more) :
    ∃ c', Conf.run ⟨c, .writeResponse 200 [] [] :: rest⟩ (taus 4 ++ .ret :: taus 2 ++ .ret :: taus 4) = some ⟨c', .env :: .sendContentRest :: .writeResponseRest [] :: rest⟩ ∧
      c'.fault = none ∧ c'.st = .sendingHeaders ∧ unread c' = [] ∧ c'.log = c.log ++ [.head plainAnswer, .completed, .ready c'.req] := by
  generalize hc1 : ({ c with respLen := 0 } : Conn) = c1
  have e1 : exec 0 (.writeResponse 200 [] []) c = (c1, [.writeHeaders 200 [], .writeResponseRest []]) := by
    rw [← hc1]; simp [exec, Conn.writeResponse, hst]
  have f1 : c1.fault = none := by rw [← hc1]; exact hf
  generalize hc2 : ({ c1 with status := 200, respBuf := plainAnswer.bytes, respLen := 0, chunked := plainAnswer.chunked, keepAlive := true, dev := some { d with pending := d.pending + plainAnswer.bytes.length }, log := c1.log ++ [.head plainAnswer] } : Conn) = c2
  have e2 : exec 0 (.writeHeaders 200 []) c1 = (c2, [.sendContent]) := by
    have hv1 : c1.viewsValid = true := by rw [← hc1]; exact hv
    have hd1 : c1.dev = some d := by rw [← hc1]; exact hd
    have hbh : buildHead c1.respBuf c1.http11 c1.req c1.respLen c1.chunked 200 [] = some plainAnswer := by
      rw [← hc1]
      show buildHead c.respBuf c.http11 c.req 0 c.chunked 200 [] = _
      rw [hb, h11, hreq, hch]; exact plainAnswer_built
    simp only [exec, Conn.writeHeaders]
    rw [if_neg (by rw [← hc1]; simp [hst])]
    simp only [readView_valid hv1, hbh, Conn.write, hd1, Ev.wire, plainAnswer_keeps, plainAnswer_len]
    rw [hc2]
  have f2 : c2.fault = none := by rw [← hc2]; exact f1
  generalize hc3 : ({ c2 with st := .sendingContent, respBuf := [] } : Conn) = c3
  have e3 : exec 0 .sendContent c2 = (c3, [.completed, .sendContentRest]) := by
    simp only [exec, Conn.sendContent]
    rw [if_neg (by rw [← hc2, ← hc1]; simp [hst]), if_pos (by rw [← hc2]), hc3]
  have f3 : c3.fault = none := by rw [← hc3]; exact f2
  generalize hc4 : ({ c3 with st := .completed, log := c3.log ++ [.completed] } : Conn) = c4
  have e4 : exec 0 .completed c3 = (c4, [.env, .completedRest]) := by
    simp only [exec, Conn.complete]
    rw [if_neg (by rw [← hc3]; simp)]
    simp only [Conn.emit, hc4]
  have f4 : c4.fault = none := by rw [← hc4]; exact f3
  have k4 : c4.keepAlive = true := by rw [← hc4, ← hc3, ← hc2]
  have b4 : c4.buf = c.buf := by rw [← hc4, ← hc3, ← hc2, ← hc1]
  have p4 : c4.parser = c.parser := by rw [← hc4, ← hc3, ← hc2, ← hc1]
  have n4 : c4.clen = c.clen := by rw [← hc4, ← hc3, ← hc2, ← hc1]
  have d4 : c4.dev = some { d with pending := d.pending + plainAnswer.bytes.length } := by rw [← hc4, ← hc3, ← hc2]
  have l4 : c4.log = c.log ++ [.head plainAnswer, .completed] := by rw [← hc4, ← hc3, ← hc2, ← hc1]; simp
  have s4 : c4.st = .completed := by rw [← hc4]
  obtain ⟨c5, e5, f5, b5, r5, d5, l5, s5⟩ : ∃ c5, exec 0 .completedRest c4 = (c5, [.flush, .completedRest2]) ∧ c5.fault = none ∧ c5.buf = tail ∧ c5.refs = [] ∧
      c5.dev = c4.dev ∧ c5.log = c4.log ∧ c5.st = .completed := by
    refine ⟨c4.completedRest.1, ?_, ?_, ?_, ?_, ?_, ?_, ?_⟩
    · show c4.completedRest = _
      unfold Conn.completedRest
      simp only []
      rw [if_pos k4]
    all_goals
      unfold Conn.completedRest
      simp only []
      rw [if_pos k4]
    · exact f4
    · show (if _ then _ else _) = _
      rw [b4, p4, n4, hl, if_pos (by rw [hm, List.length_append]; simp [plainText]; omega), Int.toNat_natCast]
      exact ht
    · exact s4
  rw [d4] at d5
  generalize hc6 : ({ c5 with dev := some { d with pending := d.pending + plainAnswer.bytes.length - 0 } } : Conn) = c6
  have e6 : exec 0 .flush c5 = (c6, [.env]) := by
    simp only [exec, Conn.flush, d5]
    rw [if_pos (by have := plainAnswer_pos; omega), hc6]
  have f6 : c6.fault = none := by rw [← hc6]; exact f5
  have s6 : c6.st = .completed := by rw [← hc6]; exact s5
  generalize hc7 : ({ c6 with st := .receivingHeaders, parser := c6.parser.init, clen := 0, http11 := false } : Conn) = c7
  have e7 : exec 0 .completedRest2 c6 = (c7, [.processInput]) := by
    simp only [exec, Conn.completedRest2, Conn.toReceivingHeaders]
    rw [if_neg (by rw [s6]; simp), hc7]
  have f7 : c7.fault = none := by rw [← hc7]; exact f6
  obtain ⟨c8, e8, f8, s8, u8, l8⟩ := read_next c7 { d with pending := d.pending + plainAnswer.bytes.length - 0 } c6.parser (.sendContentRest :: .writeResponseRest [] :: rest) more f7
    (by rw [← hc7]) (by rw [← hc7]) (by rw [← hc7, ← hc6]) (by rw [← hc7, ← hc6]; show c5.buf ++ d.inp = _; rw [b5, hin, List.append_nil, hm]) (by rw [← hc7, ← hc6]; exact r5) (by rw [← hc7])
  refine ⟨c8, ?_, f8, s8, u8, ?_⟩
  · show Conf.run _ (.tau 0 :: .tau 0 :: .tau 0 :: .tau 0 :: .ret :: .tau 0 :: .tau 0 :: .ret :: .tau 0 :: taus 3) = _
    rw [run_tau (by simp) hf, e1]; simp only [List.cons_append, List.nil_append]
    rw [run_tau (by simp) f1, e2]; simp only [List.cons_append, List.nil_append]
    rw [run_tau (by simp) f2, e3]; simp only [List.cons_append, List.nil_append]
    rw [run_tau (by simp) f3, e4]; simp only [List.cons_append, List.nil_append]
    have ret : ∀ (c : Conn) r ls, c.fault = none → Conf.run ⟨c, .env :: r⟩ (.ret :: ls) = Conf.run ⟨c, r⟩ ls := by
      intro c r ls h
      rw [Conf.run]
      simp [Conf.step, h]
    rw [ret _ _ _ f4, run_tau (by simp) f4, e5]; simp only [List.cons_append, List.nil_append]
    rw [run_tau (by simp) f5, e6]; simp only [List.cons_append, List.nil_append]
    rw [ret _ _ _ f6, run_tau (by simp) f6, e7]; simp only [List.cons_append, List.nil_append]
    exact e8
  · rw [l8, ← hc7, ← hc6]
    show c5.log ++ _ = _
    rw [l5, l4]; simp

theorem atOnce_run {s t : Conf} {ls : List Label} (hr : Reach AtOnce s) (h : s.run ls = some t) (hl : ∀ l ∈ ls, Onward l) : Reach AtOnce t := by
  induction ls generalizing s with
  | nil => cases h; exact hr
  | cons l ls ih =>
    simp only [Conf.run] at h
    cases hs : s.step l with
    | none => rw [hs] at h; cases h
    | some u =>
      rw [hs] at h
      refine ih (.step s u l hr ?_ hs) h (fun l h => hl l (List.mem_cons_of_mem _ h))
      rcases hl l (by simp) with ⟨k, rfl⟩ | rfl
      · exact ⟨⟨fun e => (by cases e), fun e => (by cases e)⟩, trivial⟩
      · exact ⟨⟨fun e => (by cases e), fun e => (by cases e)⟩, trivial⟩

theorem taus_onward (n : Nat) : ∀ l ∈ taus n, Onward l := by
  intro l h
  rw [taus, List.mem_replicate] at h
  exact .inl ⟨0, h.2⟩

theorem atOnce_proper {s : Conf} (h : Reach AtOnce s) : Reach Proper s := by
  induction h with
  | start => exact .start
  | step s s' l _ ha hs ih => exact .step s s' l ih ha.1.1 hs

/-- `i` of `n` requests have been handed out, and none of the slots has returned. -/
structure Deep (n i : Nat) (s : Conf) : Prop where
  reach : Reach AtOnce s
  top : ∃ rest, s.stack = .env :: rest
  fault : s.c.fault = none
  st : s.c.st = .sendingHeaders
  read : unread s.c = []
  got : received (epoch s.c.log) = flood n
  all : received s.c.log = flood n
  handed : (readys (epoch s.c.log)).length = i
  last : ∃ l, s.c.log = l ++ [.ready s.c.req]
  deep : i ≤ depth s

theorem deep_facts {n i : Nat} {s : Conf} (h : Deep n i s) : s.c.req = plainHead.shown [] ∧
    ∃ tail, tail = flood (n - i) ∧ (s.c.buf.length : Int) - s.c.parser.bodyStart - s.c.clen = tail.length ∧ s.c.buf.drop (s.c.buf.length - tail.length) = tail := by
  obtain ⟨rest, hrest⟩ := h.top
  have he : s.inEnv = true := by simp [Conf.inEnv, hrest]
  obtain ⟨ph, hruns, hne, hph⟩ := reach_phase (atOnce_proper h.reach) he h.fault
  rcases hph with ⟨hset, hcore⟩ | ⟨-, e | ⟨e, -⟩⟩
  rotate_left
  · rw [h.st] at e; cases e
  · rw [h.st] at e; cases e
  obtain ⟨-, ⟨reqs, tail, hh, h1, h2⟩, -⟩ := (settled_sendH h.st).1 hset
  have hstream := hh.stream
  rw [h.got] at hstream
  obtain ⟨k1, k2, k3⟩ := flood_cut hstream
  have hlen : reqs.length = i := by
    have := hh.ready
    rw [← h.handed, this, shownAll, List.length_map]
  rw [show s.c.inp = [] from h.read, List.append_nil, hlen] at k2
  refine ⟨?_, tail, k2, h1, h2⟩
  obtain ⟨l, hl⟩ := h.last
  have hmem : s.c.req ∈ readys (epoch s.c.log) := by
    rw [hl, epoch_snoc, if_neg (by simp), readys_snoc]; simp [Ev.request]
  rw [hh.ready, k3] at hmem
  exact (List.mem_replicate.1 hmem).2

theorem deep_step {n i : Nat} {s : Conf} (h : Deep n i s) (hi : i < n) : ∃ t, Deep n (i + 1) t := by
  obtain ⟨hreq, tail, ht, h1, h2⟩ := deep_facts h
  obtain ⟨rest, hrest⟩ := h.top
  have he : s.inEnv = true := by simp [Conf.inEnv, hrest]
  obtain ⟨ph, hruns, hne, hph⟩ := reach_phase (atOnce_proper h.reach) he h.fault
  rcases hph with ⟨hset, hcore⟩ | ⟨-, e | ⟨e, -⟩⟩
  rotate_left
  · rw [h.st] at e; cases e
  · rw [h.st] at e; cases e
  obtain ⟨-, -, h3, h4, h5, h6, h7⟩ := (settled_sendH h.st).1 hset
  obtain ⟨d, hd⟩ := Option.isSome_iff_exists.1 (hcore.dev (by rw [h.st]; simp) (by rw [h.st]; simp))
  have hbuf : s.c.respBuf = [] := hcore.resp (inEnv_head he).2
  have hin : d.inp = [] := by have := h.read; rw [unread, hd] at this; exact this
  have hmore : tail = plainText ++ flood (n - i - 1) := by rw [ht, ← flood_succ]; congr 1; omega
  obtain ⟨c', e1, f1, s1, u1, l1⟩ := answer_next s.c d s.stack tail (flood (n - i - 1)) h.fault h.st hd hin hbuf (by rw [h3, hreq]; decide +kernel) h4 hreq h6 h1 h2 hmore
  have hcall : s.step (.call (.writeResponse 200 [] [])) = some ⟨s.c, .writeResponse 200 [] [] :: s.stack⟩ := by simp [Conf.step, h.fault, he, Call.instr]
  have hr1 : Reach AtOnce ⟨s.c, .writeResponse 200 [] [] :: s.stack⟩ :=
    .step s _ (.call (.writeResponse 200 [] [])) h.reach ⟨⟨fun e => (by cases e), fun e => (by cases e)⟩, .inr ⟨by rw [hrest]; simp, h.st, rfl⟩⟩ hcall
  refine ⟨⟨c', .env :: .sendContentRest :: .writeResponseRest [] :: s.stack⟩, ?_, ⟨_, rfl⟩, f1, s1, u1, ?_, ?_, ?_, ⟨s.c.log ++ [.head plainAnswer, .completed], by simp only; rw [l1]; simp⟩, ?_⟩
  · refine atOnce_run hr1 e1 ?_
    intro l hl
    simp only [List.mem_append, List.mem_cons] at hl
    rcases hl with (hl | rfl | hl) | rfl | hl
    · exact taus_onward _ l hl
    · exact .inr rfl
    · exact taus_onward _ l hl
    · exact .inr rfl
    · exact taus_onward _ l hl
  all_goals try simp only
  · rw [l1, show s.c.log ++ [Ev.head plainAnswer, .completed, .ready c'.req] = ((s.c.log ++ [.head plainAnswer]) ++ [.completed]) ++ [.ready c'.req] by simp]
    rw [epoch_snoc, if_neg (by simp), epoch_snoc, if_neg (by simp), epoch_snoc, if_neg (by simp), received_snoc, received_snoc, received_snoc, h.got]
    simp [Ev.bytesIn]
  · rw [l1, show s.c.log ++ [Ev.head plainAnswer, .completed, .ready c'.req] = ((s.c.log ++ [.head plainAnswer]) ++ [.completed]) ++ [.ready c'.req] by simp]
    rw [received_snoc, received_snoc, received_snoc, h.all]
    simp [Ev.bytesIn]
  · rw [l1, show s.c.log ++ [Ev.head plainAnswer, .completed, .ready c'.req] = ((s.c.log ++ [.head plainAnswer]) ++ [.completed]) ++ [.ready c'.req] by simp]
    rw [epoch_snoc, if_neg (by simp), epoch_snoc, if_neg (by simp), epoch_snoc, if_neg (by simp), readys_snoc, readys_snoc, readys_snoc]
    simp [Ev.request, h.handed]
  · have := h.deep
    unfold depth at this ⊢
    simp only [List.count_cons_self]
    rw [List.count_cons_of_ne (by simp), List.count_cons_of_ne (by simp)]
    omega

/-- The first request. -/
theorem deep_start (n : Nat) : ∃ s, Deep (n + 1) 1 s := by
  have r1 : Reach AtOnce ⟨Conn.initialize {}, []⟩ :=
    .step {} _ .init .start ⟨⟨fun _ => ⟨rfl, .inl rfl⟩, fun e => (by cases e)⟩, rfl⟩ rfl
  have r2 : Reach AtOnce ⟨({ Conn.initialize {} with dev := some { inp := flood (n + 1) } } : Conn).emit (.recv (flood (n + 1))), []⟩ :=
    .step _ _ (.recv (flood (n + 1))) r1 ⟨⟨fun e => (by cases e), fun e => (by cases e)⟩, rfl⟩ rfl
  have r3 : Reach AtOnce ⟨({ Conn.initialize {} with dev := some { inp := flood (n + 1) } } : Conn).emit (.recv (flood (n + 1))), [.processInput]⟩ :=
    .step _ _ (.call .processInput) r2 ⟨⟨fun e => (by cases e), fun e => (by cases e)⟩, .inl ⟨rfl, rfl⟩⟩ rfl
  obtain ⟨c', e1, f1, s1, u1, l1⟩ := read_next (({ Conn.initialize {} with dev := some { inp := flood (n + 1) } } : Conn).emit (.recv (flood (n + 1)))) { inp := flood (n + 1) } {} [] (flood n)
    rfl rfl rfl rfl (flood_succ n) rfl rfl
  have hl : c'.log = [.init, .recv (flood (n + 1)), .ready c'.req] := by rw [l1]; rfl
  have h1 : epoch [Ev.init, .recv (flood (n + 1)), .ready c'.req] = [.recv (flood (n + 1)), .ready c'.req] := by
    simp [epoch]
  refine ⟨⟨c', [.env]⟩, atOnce_run r3 e1 (taus_onward 3), ⟨[], rfl⟩, f1, s1, u1, ?_, ?_, ?_, ⟨[.init, .recv (flood (n + 1))], by simp only; rw [hl]; rfl⟩, Nat.le_refl _⟩
  all_goals try simp only
  · rw [hl, h1]; simp [received, Ev.bytesIn]
  · rw [hl]; simp [received, Ev.bytesIn]
  · rw [hl, h1]; rfl

/-- C85, violated by the code: a client that sends `n` requests in one go makes the connection nest `n` deep, with the simplest
of all servers (every request is answered at once with an empty response): each request after the first is handed out from
within the completion of the one before.  Nothing bounds `n`. -/
theorem C85_violation (n : Nat) : ∃ s, Reach AtOnce s ∧ received s.c.log = (List.replicate n b!"GET / HTTP/1.1\r\n\r\n").flatten ∧ n ≤ depth s := by
  cases n with
  | zero => exact ⟨{}, .start, rfl, Nat.zero_le _⟩
  | succ n =>
    have key : ∀ j, j ≤ n → ∃ s, Deep (n + 1) (j + 1) s := by
      intro j
      induction j with
      | zero => intro _; exact deep_start n
      | succ j ih =>
        intro hj
        obtain ⟨s, hs⟩ := ih (by omega)
        exact deep_step hs (by omega)
    obtain ⟨s, hs⟩ := key n (Nat.le_refl _)
    exact ⟨s, hs.reach, hs.all, hs.deep⟩

instance (s : Conf) (l : Label) : Decidable (SlotsAnswer s l) := by
  unfold SlotsAnswer
  have : Decidable ((∀ a, l = .call a → Answering a) ∧ ∀ k, l ≠ .bytesWritten k) := by
    cases l with
    | call a =>
      have : Decidable (Answering a) := by cases a <;> unfold Answering <;> infer_instance
      exact decidable_of_iff (Answering a) ⟨fun h => ⟨fun b e => (by cases e; exact h), fun k e => (by cases e)⟩, fun h => h.1 a rfl⟩
    | bytesWritten k => exact .isFalse fun h => h.2 k rfl
    | _ => exact .isTrue ⟨fun a e => (by cases e), fun k e => (by cases e)⟩
  exact inferInstance

theorem later_runIf : ∀ (ls : List Label) (r s t : Conf), Later SlotsAnswer r s → s.runIf SlotsAnswer ls = some t → Later SlotsAnswer r t
  | [], r, s, t, h, e => by simp [Conf.runIf] at e; subst e; exact h
  | l :: ls, r, s, t, h, e => by
    simp only [Conf.runIf] at e
    split at e
    · rename_i ha
      cases hs : s.step l with
      | none => rw [hs] at e; cases e
      | some s' => rw [hs] at e; exact later_runIf ls r s' t (.step r s s' l h ha hs) e
    · cases e

/-- The hypotheses are met, and the bound is reached up to one: a request is being answered from the event loop, the pipelined one
behind it is answered from its slot, and then the last slot is told that this response is complete. -/
example : ∃ s t, Reach Gentle s ∧ s.stack = [] ∧ Later SlotsAnswer s t ∧ depth t = 2 ∧ (readys t.c.log).length = (readys s.c.log).length + 1 := by
  have h : ∃ s, Reach Gentle s ∧ s.stack = [] ∧ ∃ t, s.runIf SlotsAnswer ([.call (.writeResponse 200 [] [])] ++ taus 4 ++ [.ret] ++ taus 2 ++ [.ret] ++ taus 4 ++ [.call (.writeResponse 200 [] [])] ++ taus 4) = some t ∧
      depth t = 2 ∧ (readys t.c.log).length = (readys s.c.log).length + 1 := by
    obtain ⟨s, h1, h2⟩ := exists_of_endsIn (allowed := Gentle)
      (ls := [.init, .recv b!"GET / HTTP/1.1\r\n\r\nGET / HTTP/1.1\r\n\r\n", .call .processInput] ++ taus 3 ++ [.ret])
      (p := fun s => s.stack == [] && match s.runIf SlotsAnswer ([.call (.writeResponse 200 [] [])] ++ taus 4 ++ [.ret] ++ taus 2 ++ [.ret] ++ taus 4 ++ [.call (.writeResponse 200 [] [])] ++ taus 4) with
        | some t => depth t == 2 && (readys t.c.log).length == (readys s.c.log).length + 1
        | none => false) (by decide +kernel)
    simp only [Bool.and_eq_true, beq_iff_eq] at h2
    obtain ⟨h2, h3⟩ := h2
    split at h3
    · rename_i t ht
      simp only [Bool.and_eq_true, beq_iff_eq] at h3
      exact ⟨s, h1, h2, t, ht, h3.1, h3.2⟩
    · cases h3
  obtain ⟨s, h1, h2, t, h3, h4, h5⟩ := h
  exact ⟨s, t, h1, h2, later_runIf _ s s t (.refl s) h3, h4, h5⟩

/-- Calls are counted: one call, one signal. -/
example : ∃ t, Calls {} 1 t ∧ depth t = 1 :=
  ⟨_, .other _ _ _ _ (.tau 0) (.call _ _ _ _ (.call .close) (.refl _) (.inl ⟨_, rfl⟩) rfl) (by simp) (by simp) rfl, rfl⟩

end Pillow.Props
