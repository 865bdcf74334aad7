import Verif.Props.Response
import Verif.Props.Requests
import Verif.Props.Protocol
import Verif.Lemmas.Drain
set_option linter.unusedSimpArgs false
set_option linter.unusedVariables false
/-!
# C18 (`writeResponse`), C20 (what happens after a response), C21, C24, C25
-/
namespace Pillow.Props
open Pillow Pillow.Spec

/-- Only bytes arrived. -/
def OnlyRecv (es : List Ev) : Prop := ∀ e ∈ es, ∃ bs, e = .recv bs

theorem path_onlyRecv {lo : Bool} {p q : Phase} {es : List Ev} (h : Path lo p es q) (he : OnlyRecv es) : q = p := by
  induction h with
  | nil => rfl
  | cons p x r e es h1 _ ih =>
    obtain ⟨bs, rfl⟩ := he e (by simp)
    cases h1
    exact ih fun e' he' => he e' (by simp [he'])

/-! ### C18: `writeResponse` -/

/-- C18, C52: `writeResponse` answers a request completely: head with the length of the content, the content as is (nothing for
HEAD or if it is empty), `requestCompleted`.  The headers given must not contain `Content-Length`. -/
theorem C18_writeResponse (s : Conf) (hr : Reach Proper s) (he : s.inEnv = true) (hf : s.c.fault = none)
    (hst : s.c.st = .sendingHeaders) (status : Int) (hs : Headers) (ct : Bytes) (hcl : lastHeader hs b!"content-length" = none)
    (hl : (ct.length : Int) < 2147483648) :
    ∃ (n : Nat) (s' : Conf) (h : RespHead), s.run (.call (.writeResponse status hs ct) :: taus n) = some s' ∧ s'.inEnv = true ∧ h.len = (ct.length : Int) ∧
      HeadSpec s.c.req ct.length status hs h ∧
      s'.c.log = s.c.log ++ [.head h] ++ (if ct = [] ∨ s.c.req.method = b!"HEAD" then [] else [.body ct]) ++ [.completed] := by
  obtain ⟨ph, hruns, hne, hph⟩ := reach_phase hr he hf
  rcases hph with ⟨hset, hcore⟩ | ⟨-, e | ⟨e, -⟩⟩
  rotate_left
  · rw [hst] at e; cases e
  · rw [hst] at e; cases e
  obtain ⟨rfl, h2, h3, h4, h5, h6, h7⟩ := (settled_sendH hst).1 hset
  obtain ⟨d, hd⟩ := Option.isSome_iff_exists.1 (hcore.dev (by rw [hst]; simp) (by rw [hst]; simp))
  have hbuf : s.c.respBuf = [] := hcore.resp (inEnv_head he).2
  have hdl : declaredLength ct.length hs = ct.length := by unfold declaredLength; rw [hcl]
  have hsome : (buildHead [] (s.c.req.version == b!"HTTP/1.1") s.c.req ct.length false status hs).isSome = true := by
    unfold buildHead
    simp only [List.nil_append]
    have sp := scan_spec hs { out := statusLine s.c.req status, len := (ct.length : Int) }
    rw [sp.len, lengthLine_isSome _ (by rw [hdl]; omega)]
    rfl
  obtain ⟨h, hh⟩ := Option.isSome_iff_exists.1 hsome
  have hspec := head_spec hh
  have hlen : h.len = ct.length := by rw [hspec.len, hdl]
  have hch : h.chunked = false := by
    cases hc : h.chunked with
    | false => rfl
    | true => have := (hspec.chunked.1 hc).2.1; omega
  -- the first two stretches
  have r1 : exec 0 (.writeResponse status hs ct) s.c = ({ s.c with respLen := ct.length }, [.writeHeaders status hs, .writeResponseRest ct]) := by
    simp [exec, Conn.writeResponse, hst]
  generalize hc1 : ({ s.c with respLen := (ct.length : Int) } : Conn) = c1 at r1
  have hbh : buildHead c1.respBuf c1.http11 c1.req c1.respLen c1.chunked status hs = some h := by
    rw [← hc1]; show buildHead s.c.respBuf s.c.http11 s.c.req _ s.c.chunked status hs = _; rw [hbuf, h3, h4]; exact hh
  have f1 : c1.fault = none := by rw [← hc1]; exact hf
  have r2 : exec 0 (.writeHeaders status hs) c1 = ({ c1 with status := status, respBuf := h.bytes, respLen := h.len, chunked := h.chunked, keepAlive := h.keepAlive, dev := some { d with pending := d.pending + h.bytes.length }, log := c1.log ++ [.head h] }, [.sendContent]) := by
    have v1 : c1.viewsValid = true := by rw [← hc1]; exact h6
    have d1 : c1.dev = some d := by rw [← hc1]; exact hd
    have s1 : c1.st = .sendingHeaders := by rw [← hc1]; exact hst
    simp only [exec, Conn.writeHeaders]
    rw [if_neg (by simp [s1])]
    simp only [readView_valid v1, hbh, Conn.write, d1, Ev.wire]
  generalize hc2 : ({ c1 with status := status, respBuf := h.bytes, respLen := h.len, chunked := h.chunked, keepAlive := h.keepAlive, dev := some { d with pending := d.pending + h.bytes.length }, log := c1.log ++ [.head h] } : Conn) = c2 at r2
  have f2 : c2.fault = none := by rw [← hc2]; exact f1
  have st2 : c2.st = .sendingHeaders := by rw [← hc2, ← hc1]; exact hst
  have l2 : c2.log = s.c.log ++ [.head h] := by rw [← hc2, ← hc1]
  have q2 : c2.req = s.c.req := by rw [← hc2, ← hc1]
  have n2 : c2.respLen = ct.length := by rw [← hc2]; exact hlen
  have v2 : c2.viewsValid = true := by rw [← hc2, ← hc1]; exact h6
  have t2 : c2.sent = 0 := by rw [← hc2, ← hc1]; exact h7
  have ch2 : c2.chunked = false := by rw [← hc2]; exact hch
  have d2 : ∃ d, c2.dev = some d := by rw [← hc2]; exact ⟨_, rfl⟩
  have start : ∀ ls, s.run (.call (.writeResponse status hs ct) :: .tau 0 :: .tau 0 :: ls) =
      Conf.run ⟨c2, .sendContent :: .writeResponseRest ct :: s.stack⟩ ls := by
    intro ls
    rw [run_call he hf]
    simp only [Call.instr, r1]
    rw [List.cons_append, run_tau (by simp) f1]
    simp only [r2]
    rfl
  -- the rest
  by_cases hz : ct = [] ∨ s.c.req.method = b!"HEAD"
  · rw [if_pos hz]
    have r3 : exec 0 .sendContent c2 = ({ c2 with st := .sendingContent, respBuf := [] }, [.completed, .sendContentRest]) := by
      simp only [exec, Conn.sendContent]
      rw [if_neg (by simp [st2])]
      rcases hz with rfl | hz
      · simp [n2]
      · have : c2.isHead = true := by simp [Conn.isHead, q2, hz]
        have v3 : ({ c2 with st := .sendingContent, respBuf := [] } : Conn).readView = { c2 with st := .sendingContent, respBuf := [] } :=
          readView_valid v2
        simp only [v3]
        have : ({ c2 with st := .sendingContent, respBuf := [] } : Conn).isHead = true := this
        simp [this]
    refine ⟨4, ⟨{ c2 with st := .completed, respBuf := [], log := c2.log ++ [.completed] }, .env :: .completedRest :: .sendContentRest :: .writeResponseRest ct :: s.stack⟩, h, ?_, ?_, hlen, hspec, by simp [l2]⟩
    · show Conf.run _ (.call _ :: .tau 0 :: .tau 0 :: [.tau 0, .tau 0]) = _
      rw [start, run_tau (by simp) f2, r3, List.cons_append, run_tau (by simp) (by exact f2)]
      simp only [exec, Conn.complete]
      rw [if_neg (by simp)]
      rfl
    · rfl
  · rw [if_neg hz]
    have hne : ct ≠ [] := fun e => hz (.inl e)
    have hnh : s.c.req.method ≠ b!"HEAD" := fun e => hz (.inr e)
    have hpos : ct.length ≠ 0 := by simpa using hne
    have r3 : exec 0 .sendContent c2 = ({ c2 with st := .sendingContent, respBuf := [] }, [.sendContentRest]) := by
      simp only [exec, Conn.sendContent]
      rw [if_neg (by simp [st2])]
      have v3 : ({ c2 with st := .sendingContent, respBuf := [] } : Conn).readView = { c2 with st := .sendingContent, respBuf := [] } :=
        readView_valid v2
      have hh : ({ c2 with st := .sendingContent, respBuf := [] } : Conn).isHead = false := by simpa [Conn.isHead, q2] using hnh
      have hn : ¬ c2.respLen = 0 := by rw [n2]; omega
      rw [if_neg hn, v3, if_neg (by rw [hh]; simp)]
    generalize hc3 : ({ c2 with st := .sendingContent, respBuf := [] } : Conn) = c3 at r3
    have f3 : c3.fault = none := by rw [← hc3]; exact f2
    have n3 : c3.respLen = ct.length := by rw [← hc3]; exact n2
    have r4 : exec 0 .sendContentRest c3 = (c3, []) := by
      simp only [exec, Conn.sendContentRest]
      rw [if_neg (by rw [n3]; omega)]
    have v3 : c3.viewsValid = true := by rw [← hc3]; exact v2
    have m3 : c3.req.method ≠ b!"HEAD" := by rw [← hc3]; show c2.req.method ≠ _; rw [q2]; exact hnh
    have r5 : exec 0 (.writeResponseRest ct) c3 = (c3, [.writeContent ct]) := by
      simp only [exec, Conn.writeResponseRest]
      rw [if_neg hne]
      have : c3.isHead = false := by simpa [Conn.isHead] using m3
      simp [readView_valid v3, this]
    obtain ⟨d2, hd2⟩ := d2
    have hd3 : c3.dev = some d2 := by rw [← hc3]; exact hd2
    have st3 : c3.st = .sendingContent := by rw [← hc3]
    have t3 : c3.sent = 0 := by rw [← hc3]; exact t2
    have ch3 : c3.chunked = false := by rw [← hc3]; exact ch2
    have l3 : c3.log = s.c.log ++ [.head h] := by rw [← hc3]; exact l2
    obtain ⟨c4, r6, f4, st4, l4⟩ : ∃ c4, c3.writeContent ct = (c4, [.completed]) ∧ c4.fault = none ∧ c4.st = .sendingContent ∧
        c4.log = s.c.log ++ [.head h] ++ [.body ct] := by
      rw [writeContent_writes (c := c3) (ct := ct) st3 (by rw [n3]; omega) (by rw [n3, t3]; omega) hne v3 m3 hd3]
      have hfin : ((c3.sent + ct.length : Nat) : Int) = c3.respLen := by rw [n3, t3]; omega
      rw [if_pos hfin]
      refine ⟨_, rfl, f3, st3, ?_⟩
      simp [ch3, l3]
    refine ⟨7, ⟨{ c4 with st := .completed, log := c4.log ++ [.completed] }, .env :: .completedRest :: s.stack⟩, h, ?_, ?_, hlen, hspec, by simp [l4]⟩
    · show Conf.run _ (.call _ :: .tau 0 :: .tau 0 :: [.tau 0, .tau 0, .tau 0, .tau 0, .tau 0]) = _
      rw [start, run_tau (by simp) f2, r3, List.cons_append, run_tau (by simp) f3, r4, List.nil_append, List.nil_append,
        run_tau (by simp) f3, r5, List.cons_append, run_tau (by simp) f3]
      simp only [exec, r6]
      rw [List.cons_append, run_tau (by simp) f4]
      simp only [exec, Conn.complete]
      rw [if_neg (by simp [st4])]
      rfl
    · rfl

/-- C18: `endContent` on a response with a declared length does nothing; on one of unknown length that is not chunked it
completes the response (the connection is not kept then, C20). -/
theorem C18_endContent (s : Conf) (hr : Reach Proper s) (he : s.inEnv = true) (hf : s.c.fault = none) (a b : List Ev)
    (h : RespHead) (e : s.c.log = a ++ .head h :: b) (hb : NotEnded b) (hc : h.chunked = false) (k k' : Nat) :
    (0 ≤ h.len → s.run [.call .endContent, .tau k] = some s) ∧
    (h.len < 0 → ∃ s', s.run [.call .endContent, .tau k, .tau k'] = some s' ∧ s'.inEnv = true ∧ s'.c.log = s.c.log ++ [.completed]) := by
  obtain ⟨h1, h2, h3, h4, h5, h6, h7, h8, -⟩ := writing_state hr he hf e hb
  have hch : s.c.chunked = false := h3.chunked.trans hc
  rw [run_call he hf, run_call he hf]
  simp only [Call.instr, exec]
  constructor
  · intro hl
    have : s.c.endContent = (s.c, []) := by
      unfold Conn.endContent
      rw [if_neg (by simp [h2]), if_pos (by rw [h3.len]; exact hl)]
    rw [this]; rfl
  · intro hl
    have : s.c.endContent = ({ s.c with keepAlive := false }, [.completed]) := by
      unfold Conn.endContent
      rw [if_neg (by simp [h2]), if_neg (by rw [h3.len]; omega)]
      simp [hch]
    rw [this, List.singleton_append, run_tau (by simp) (by exact hf)]
    have hst : s.c.st ≠ .completed := by rw [h2]; simp
    simp only [exec, Conn.complete]
    rw [if_neg hst]
    exact ⟨_, rfl, rfl, by simp [Conn.emit]⟩

/-! ### C20: what happens after the response -/

/-- What an idle connection is in when the last thing that happened was the end of a response. -/
theorem after_state (s : Conf) (hr : Reach Proper s) (hi : s.stack = []) (hf : s.c.fault = none) (ph : Phase)
    (hp : Runs true s.c.log ph) (hph : ph = .recv false ∨ ph = .flushing) :
    (ph = .recv false → s.c.st = .receivingHeaders ∨ s.c.st = .receivingContent) ∧
    (ph = .flushing → s.c.st = .flushing ∧ s.c.dev.isSome = true) := by
  obtain ⟨ph', hp', -, h⟩ := reach_phase hr (by rw [inEnv_iff]; exact .inl hi) hf
  cases runs_det hp hp'
  rcases h with ⟨hset, hcore⟩ | ⟨rfl, -⟩
  · have hnc : s.c.st ≠ .completed := by
      intro hc
      have := hcore.sens
      rw [hi, hc] at this
      simp [sensOk] at this
    cases hst : s.c.st with
    | uninitialized => rw [Settled, hst] at hset; rcases hph with rfl | rfl <;> simp at hset
    | receivingHeaders => have := (settled_recvH hst).1 hset; rcases hph with rfl | rfl <;> simp_all
    | receivingContent =>
      obtain ⟨_, _, _, _, k, _⟩ := (settled_recvC hst).1 hset
      have := k.phase
      rcases hph with rfl | rfl <;> simp_all
    | sendingHeaders => have := (settled_sendH hst).1 hset; rcases hph with rfl | rfl <;> simp_all
    | sendingContent => obtain ⟨h', n', e, -⟩ := (settled_sendC hst).1 hset; rcases hph with rfl | rfl <;> cases e
    | completed => exact absurd hst hnc
    | flushing =>
      have h1 := (settled_flushing hst).1 hset
      have h2 := hcore.dev (by simp [hst]) (by simp [hst])
      rcases hph with rfl | rfl <;> simp_all
    | closed => have h1 := (settled_closed hst).1 hset; rcases hph with rfl | rfl <;> simp_all
  · rcases hph with h | h <;> cases h

theorem completed_phase {log a b d : List Ev} {h : RespHead} {ph : Phase} (hr : Runs true log ph) (e : log = a ++ .head h :: b ++ .completed :: d)
    (hb : NoHead b) : Path true (.after h) d ph := by
  rw [List.append_assoc, List.cons_append] at e
  obtain ⟨r, -, -, -, h4⟩ := head_split hr e
  exact (response_completed h4 hb).2.1

/-- C20: a connection that is kept reads the next request. -/
theorem C20_kept (s : Conf) (hr : Reach Proper s) (hi : s.stack = []) (hf : s.c.fault = none) (a b d : List Ev) (h : RespHead)
    (e : s.c.log = a ++ .head h :: b ++ .completed :: d) (hb : NoHead b) (hd : OnlyRecv d) (hk : h.keepAlive = true) :
    s.c.st = .receivingHeaders ∨ s.c.st = .receivingContent := by
  obtain ⟨-, ph, hp⟩ := reach_log hr
  have h1 := path_onlyRecv (completed_phase hp e hb) hd
  have h2 : ph = .recv false := by rw [h1]; simp [Phase.after, hk]
  exact (after_state s hr hi hf ph hp (.inl h2)).1 h2

/-- C20: on a connection that is not kept nothing is written and no request is handed out after the response; it closes
as C24 says. -/
theorem C20_not_kept (s : Conf) (hr : Reach Proper s) (a b d : List Ev) (h : RespHead)
    (e : s.c.log = a ++ .head h :: b ++ .completed :: d) (hb : NoHead b) (hk : h.keepAlive = false) (hd : .init ∉ d) :
    ∀ e ∈ d, (∃ bs, e = .recv bs) ∨ IsClosed e := by
  obtain ⟨-, ph, hp⟩ := reach_log hr
  have h1 := completed_phase hp e hb
  rw [Phase.after, if_neg (by simp [hk])] at h1
  refine path_events (fun p => p = .flushing ∨ p = .closed) (fun e => e = .init) _ ?_ h1 (.inl rfl) ?_
  · intro p e q hn hp he
    rcases hp with rfl | rfl <;> cases hn <;> simp_all [IsClosed]
  · exact fun e he hc => hd (hc ▸ he)

/-! ### C21 -/

/-- C21, for what is written between the head of the response to a HEAD request and the next head: no content, no
chunk. -/
theorem C21_no_body_partial (s : Conf) (hr : Reach Proper s) (a b : List Ev) (h : RespHead) (r : ReqView)
    (e : s.c.log = a ++ .head h :: b) (hb : NoHead b) (hreq : (readys a).getLast? = some r) (hm : r.method = b!"HEAD") :
    contentOf b = [] ∧ .lastChunk ∉ b := by
  obtain ⟨-, ph, hruns⟩ := reach_log hr
  obtain ⟨r', h1, -, h3, h4⟩ := head_split hruns e
  rw [hreq, Option.some.injEq] at h1
  subst h1
  have h4 : Path true (.ended r h) b ph := by rw [Phase.begin, if_pos (.inr hm)] at h4; exact h4
  have := no_content_path h4 (by simp) hb
  exact ⟨contentOf_nil fun e he => (this e he).1, fun hm => (this _ hm).2 rfl⟩

/-- The events of a HEAD request answered with `writeResponse(200, [], "abc")`, with a GET request behind it whose handler
has so far only called `writeHeaders` with `Content-Length: 3`. -/
def headPipelined : List Label :=
  [.init, .recv b!"HEAD /a HTTP/1.1\r\n\r\nGET /b HTTP/1.1\r\n\r\n", .call .processInput] ++ taus 3 ++
  [.call (.writeResponse 200 [] b!"abc")] ++ taus 4 ++ [.ret] ++ taus 2 ++ [.ret] ++ taus 4 ++
  [.call (.writeHeaders 200 [⟨b!"Content-Length", b!"3"⟩])] ++ taus 3 ++ [.ret] ++ taus 4

/-- C21 is false of the code as soon as requests are pipelined: in this run `"abc"` is passed to the connection only once, as
the content for the HEAD request, before the GET request is handed out, and nevertheless written: as the content of the
response to the GET request. -/
theorem C21_violation : ∃ s, Conf.runIf Gentle {} headPipelined = some s ∧ (readys s.c.log).map (·.method) = [b!"HEAD", b!"GET"] ∧
    contentOf s.c.log = b!"abc" := by
  have h : ((Conf.runIf Gentle {} headPipelined).map fun s =>
      ((readys s.c.log).map (·.method) == [b!"HEAD", b!"GET"] && contentOf s.c.log == b!"abc")) = some true := by decide +kernel
  cases hs : Conf.runIf Gentle {} headPipelined with
  | none => rw [hs] at h; cases h
  | some s =>
    rw [hs] at h
    simp only [Option.map_some, Option.some.injEq, Bool.and_eq_true, beq_iff_eq] at h
    exact ⟨s, rfl, h.1, h.2⟩

/-! ### C24 -/

/-- C24: the connection itself (as opposed to somebody calling `close()`, or the peer) closes the device only when every
byte written has left. -/
theorem C24_nothing_unsent (s : Conf) (hr : Reach Proper s) (u : Nat) (h : Ev.closed false u ∈ s.c.log) : u = 0 := by
  obtain ⟨-, ph, hp⟩ := reach_log hr
  obtain ⟨a, b, e⟩ := List.append_of_mem h
  rw [e] at hp
  obtain ⟨q, -, h1⟩ := runs_split hp
  cases h1 with
  | cons _ _ _ _ _ hn _ => cases hn; rfl

/-- A response that is not kept has been completed or an error reply written, and nothing but the arrival of bytes
happened since. -/
def MustClose (log : List Ev) : Prop :=
  (∃ a code d, log = a ++ .errorReply code :: d ∧ OnlyRecv d) ∨
  (∃ a h b d, log = a ++ .head h :: b ++ .completed :: d ∧ NoHead b ∧ OnlyRecv d ∧ h.keepAlive = false)

theorem mustClose_phase {log : List Ev} {ph : Phase} (h : MustClose log) (hp : Runs true log ph) : ph = .flushing := by
  rcases h with ⟨a, code, d, e, hd⟩ | ⟨a, h, b, d, e, hb, hd, hk⟩
  · rw [e] at hp
    obtain ⟨q, -, h1⟩ := runs_split hp
    cases h1 with
    | cons _ _ _ _ _ hn h2 =>
      cases hn
      exact path_onlyRecv h2 hd
  · have := path_onlyRecv (completed_phase hp e hb) hd
    rw [this, Phase.after, if_neg (by simp [hk])]

/-- C24: and it does close once everything has left.  If the connection has to close and control is in the event loop,
then the device is still there, and when it sends `k` further bytes and signals this: either bytes remain, the connection
goes on waiting, or everything has left, and it closes. -/
theorem C24_closes (s : Conf) (hr : Reach Proper s) (hi : s.stack = []) (hf : s.c.fault = none) (hm : MustClose s.c.log) (k : Nat) :
    ∃ d, s.c.dev = some d ∧
      (k < d.pending → ∃ s', s.run ([.bytesWritten k] ++ taus 2 ++ [.ret] ++ taus 1) = some s' ∧ s'.stack = [] ∧
        s'.c = { s.c with dev := some { d with pending := d.pending - k } }) ∧
      (d.pending ≤ k → ∃ s', s.run ([.bytesWritten k] ++ taus 4) = some s' ∧ s'.c.log = s.c.log ++ [.closed false 0] ∧ s'.c.st = .closed) := by
  obtain ⟨-, ph, hp⟩ := reach_log hr
  have hph := mustClose_phase hm hp
  obtain ⟨hst, hdev⟩ := (after_state s hr hi hf ph hp (.inr hph)).2 hph
  obtain ⟨d, hd⟩ := Option.isSome_iff_exists.1 hdev
  have hc : d.drainConn = true := by
    rcases drains_reach hr hst d hd with h | h
    · exact h
    · rw [hi] at h; cases h
  have h1 : s.step (.bytesWritten k) = some ⟨{ s.c with dev := some { d with pending := d.pending - k } }, [.drain]⟩ := by
    simp [Conf.step, hf, Conf.inEnv, hi, hd, hc]
  generalize hc' : ({ s.c with dev := some { d with pending := d.pending - k } } : Conn) = c at h1
  have e1 : c.st = .flushing := by rw [← hc']; exact hst
  have e2 : c.dev = some { d with pending := d.pending - k } := by rw [← hc']
  have e3 : c.fault = none := by rw [← hc']; exact hf
  have e4 : c.log = s.c.log := by rw [← hc']
  have r1 : ∀ ls, s.run ([.bytesWritten k] ++ ls) = Conf.run ⟨c, [.drain]⟩ ls := by
    intro ls; rw [List.singleton_append, Conf.run, h1, Option.bind_some]
  have r2 : c.drain = (c, [.flush, .drainRest]) := by simp [Conn.drain, e1]
  refine ⟨d, hd, fun hk => ?_, fun hk => ?_⟩
  · have h0 : 0 < d.pending - k := by omega
    have h2 : ¬ d.pending - k = 0 := by omega
    have r3 : c.flush 0 = (c, [.env]) := by
      unfold Conn.flush
      rw [e2]
      simp only [gt_iff_lt, h0, if_true, Nat.sub_zero]
      rw [← e2]
    have r4 : c.drainRest = (c, []) := by
      unfold Conn.drainRest
      rw [e2]
      simp [h2]
    refine ⟨⟨c, []⟩, ?_, rfl, hc'.symm⟩
    rw [List.append_assoc, List.append_assoc, r1]
    show Conf.run ⟨c, [.drain]⟩ [.tau 0, .tau 0, .ret, .tau 0] = _
    rw [run_tau (by simp) e3]
    simp only [exec, r2]
    rw [List.append_nil, run_tau (by simp) e3]
    simp only [exec, r3]
    simp [Conf.run, Conf.step, e3, exec, r4]
  · have h0 : d.pending - k = 0 := by omega
    rw [h0] at e2
    have r3 : c.flush 0 = (c, []) := by
      unfold Conn.flush
      rw [e2]
      simp
    have r4 : c.drainRest = (c, [.closed false]) := by
      unfold Conn.drainRest
      rw [e2]
      simp
    refine ⟨⟨{ c with st := .closed, log := c.log ++ [.closed false 0] }, [.env, .closedRest]⟩, ?_, by rw [← e4], rfl⟩
    rw [r1]
    show Conf.run ⟨c, [.drain]⟩ [.tau 0, .tau 0, .tau 0, .tau 0] = _
    rw [run_tau (by simp) e3]
    simp only [exec, r2]
    rw [List.append_nil, run_tau (by simp) e3]
    simp only [exec, r3]
    rw [List.nil_append, run_tau (by simp) e3]
    simp only [exec, r4]
    rw [List.append_nil, run_tau (by simp) e3]
    simp only [exec, Conn.toClosed, e1, e2]
    simp [Conf.run, Conn.emit]

/-! ### C25 -/

/-- An interim response has been written since the last request was completed or the connection initialized. -/
def interimSince (log : List Ev) : Bool :=
  log.foldl (fun acc e => if e = .init ∨ e = .completed then false else if e = .interim then true else acc) false

theorem interimSince_snoc (log : List Ev) (e : Ev) : interimSince (log ++ [e]) =
    if e = .init ∨ e = .completed then false else if e = .interim then true else interimSince log := by
  simp [interimSince, List.foldl_append]

theorem interim_phase {lo : Bool} {log : List Ev} {ph : Phase} (h : Runs lo log ph) : ∀ i, ph = .recv i → interimSince log = i := by
  induction h with
  | start => intro i h; cases h
  | step log p p' e hr hn ih =>
    intro i hi
    rw [interimSince_snoc]
    cases hn with
    | init p hp => cases hi; simp
    | recv p bs => simp [ih i hi]
    | interim => cases hi; simp
    | completed r h => unfold Phase.after at hi; split at hi <;> cases hi; simp
    | completedOpen r h n _ _ _ => unfold Phase.after at hi; split at hi <;> cases hi; simp
    | head r h _ => split at hi <;> cases hi
    | body r h n bs _ _ _ _ _ => split at hi <;> cases hi
    | _ => cases hi

/-- C25: for every request handed out, the interim response has been written iff the request asked for it (with a positive
content length). -/
theorem C25_iff (s : Conf) (hr : Reach Proper s) (a b : List Ev) (r : ReqView) (e : s.c.log = a ++ .ready r :: b) :
    interimSince a = true ↔ WantsContinue r := by
  obtain ⟨-, ph, hp⟩ := reach_log hr
  rw [e] at hp
  obtain ⟨q, h1, h2⟩ := runs_split hp
  cases h2 with
  | cons _ _ _ _ _ hn _ =>
    cases hn with
    | ready i r hi => rw [interim_phase h1 i rfl]; exact hi

/-- C25: it is written at most once, and only while a request is being received, never while one is being handled or
answered. -/
theorem C25_once (s : Conf) (hr : Reach Proper s) (a b : List Ev) (e : s.c.log = a ++ .interim :: b) :
    interimSince a = false ∧
    ∀ a1 r a2, a = a1 ++ .ready r :: a2 → .completed ∈ a2 ∨ ∃ e ∈ a2, IsClosed e := by
  obtain ⟨-, ph, hp⟩ := reach_log hr
  rw [e] at hp
  obtain ⟨q, h1, h2⟩ := runs_split hp
  cases h2 with
  | cons _ _ _ _ _ hn _ =>
    cases hn with
    | interim =>
      refine ⟨interim_phase h1 false rfl, ?_⟩
      rintro a1 r a2 rfl
      obtain ⟨q, -, h1⟩ := runs_split h1
      cases h1 with
      | cons _ q1 _ _ _ n1 h3 =>
      apply Classical.byContradiction
      intro hne
      have hI : (Phase.recv false).req.isSome = true := by
        refine path_stays (fun p => p.req.isSome = true) (fun e => e = .completed ∨ IsClosed e) ?_ h3 ?_ ?_
        · intro p e q hn hp he
          rw [(req_stays hn hp (fun k => he (.inl k)) (fun f u k => he (.inr ⟨f, u, k⟩))).1]; exact hp
        · cases n1; rfl
        · rintro e he (hc | hc)
          · exact hne (.inl (hc ▸ he))
          · exact hne (.inr ⟨e, he, hc⟩)
      cases hI

/-- C25: it is written in time: when the connection waits for the content of a request whose head has arrived, the interim
response has been written iff the request asks for it. -/
theorem C25_in_time (s : Conf) (hr : Reach Proper s) (hw : Waiting s) (reqs : List (ReqHead × Bytes)) (h : ReqHead) (tail : Bytes) (n : Nat)
    (hs : Requests (received (epoch s.c.log)) reqs (h.render ++ tail)) (ha : Acceptable h n) (ht : tail.length < n) :
    interimSince s.c.log = true ↔ SameCI (firstValue (h.headers.map fun l => ⟨l.name, l.value⟩) b!"expect") b!"100-continue" := by
  have hc := reach_core hr (by rw [inEnv_iff]; exact .inl hw.idle) hw.alive
    (by rcases hw.state with e | e <;> rw [e] <;> simp) (by rcases hw.state with e | e <;> rw [e] <;> simp)
  obtain ⟨ph, hp, hd⟩ := hc.data
  rw [hw.idle] at hd
  have hd : Settled true s.c ph := hd
  have hin : s.c.inp = [] := hw.allRead
  have hnc := (content_waiting h ha.wf ha.short tail n ha.announced ha.small ht).1
  rcases hw.state with e | e
  · obtain ⟨-, reqs', s0, m, h1, h2, h3, -, -, -, h4⟩ := (settled_recvH e).1 hd
    obtain ⟨rfl, hlen⟩ := h4 rfl
    rw [List.take_length] at h3
    rw [hin, List.append_nil] at h1
    rcases Requests.unique hs h1.stream with ⟨-, e⟩ | ⟨-, -, e⟩ | ⟨-, -, e⟩
    · exact absurd ⟨tail, e⟩ (live_no_head s0 _ h3 h ha.wf)
    · exact absurd e hnc
    · exact absurd e (live_waiting s0 _ h3 hlen).1
  · obtain ⟨reqs', hd', tail', m, h1, h2, h3⟩ := (settled_recvC e).1 hd
    have hh := h1.head.hist
    rw [hin, List.append_nil] at hh
    rw [interim_phase hp _ h1.phase, ← expects_iff]
    rcases Requests.unique hs hh.stream with ⟨-, e⟩ | ⟨-, -, e⟩ | ⟨-, -, e⟩
    · have hu := (head_unique ha.wf h1.head.wf e).2.2.1 []
      have : expects hd' = expects h := by
        unfold expects
        have k1 : (h.view []).headers = (hd'.view []).headers := by rw [hu]
        have k2 : (h.view []).headers = h.headers.map fun l => ⟨l.name, l.value⟩ := rfl
        have k3 : (hd'.view []).headers = hd'.headers.map fun l => ⟨l.name, l.value⟩ := rfl
        rw [← k2, k1, k3]
      rw [this]
      simp [h2]
    · exact absurd e hnc
    · exact absurd e (content_waiting hd' h1.head.wf h1.head.short tail' m h1.announced h1.small (h3 rfl)).1

/-! ### The hypotheses are met -/

/-- The events since the beginning are these, up to what they carry. -/
def shape : Ev → String
  | .init => "init" | .recv _ => "recv" | .ready _ => "ready" | .interim => "interim" | .head _ => "head" | .body _ => "body"
  | .chunk _ => "chunk" | .lastChunk => "last" | .errorReply _ => "error" | .completed => "completed" | .closed _ _ => "closed"

/-- C19, C20: a chunked response in two pieces with an empty write between them, completed; the connection is kept, and control is
back in the event loop. -/
example : ∃ s, Reach Gentle s ∧ s.stack = [] ∧ s.c.fault = none ∧
    s.c.log.map shape = ["init", "recv", "ready", "head", "chunk", "chunk", "last", "completed", "recv"] ∧
    (∃ h, Ev.head h ∈ s.c.log ∧ h.chunked = true ∧ h.keepAlive = true) ∧ contentOf s.c.log = b!"hello, world" := by
  obtain ⟨t, h1, h2⟩ := exists_of_endsIn (allowed := Gentle)
    (ls := headRun 200 [⟨b!"Transfer-Encoding", b!"chunked"⟩] ++ [.call (.writeContent b!"hello")] ++ taus 1 ++
      [.call (.writeContent [])] ++ taus 1 ++ [.call (.writeContent b!", world")] ++ taus 1 ++ [.call .endContent] ++ taus 2 ++ [.ret] ++
      taus 1 ++ [.tau 1000, .ret] ++ taus 2 ++ [.ret, .recv b!"GET"])
    (p := fun s => s.stack == [] && s.c.fault == none &&
      s.c.log.map shape == ["init", "recv", "ready", "head", "chunk", "chunk", "last", "completed", "recv"] &&
      (s.c.log.any fun e => match e with | .head h => h.chunked && h.keepAlive | _ => false) && contentOf s.c.log == b!"hello, world")
    (by decide +kernel)
  simp only [Bool.and_eq_true, beq_iff_eq, List.any_eq_true] at h2
  obtain ⟨⟨⟨⟨k1, k2⟩, k3⟩, e, k4, k5⟩, k6⟩ := h2
  refine ⟨t, h1, k1, k2, k3, ?_, k6⟩
  split at k5
  · simp only [Bool.and_eq_true] at k5; exact ⟨_, k4, k5.1, k5.2⟩
  · cases k5

/-- C18: a response with a declared length, half written. -/
example : ∃ s, Reach Gentle s ∧ s.inEnv = true ∧ s.c.fault = none ∧ ∃ a h b, s.c.log = a ++ .head h :: b ∧ NotEnded b ∧ h.len = 5 ∧
    contentOf b = b!"he" := by
  obtain ⟨t, h1, h2⟩ := exists_of_endsIn (allowed := Gentle)
    (ls := headRun 200 [⟨b!"Content-Length", b!"5"⟩] ++ [.call (.writeContent b!"he")] ++ taus 1)
    (p := fun s => s.inEnv && s.c.fault == none && match s.c.log with
      | [_, _, _, .head h, .body b] => h.len == 5 && b == b!"he"
      | _ => false) (by decide +kernel)
  simp only [Bool.and_eq_true, beq_iff_eq] at h2
  obtain ⟨⟨k1, k2⟩, k3⟩ := h2
  split at k3
  · rename_i x y z h b e
    simp only [Bool.and_eq_true, beq_iff_eq] at k3
    refine ⟨t, h1, k1, k2, [x, y, z], h, [.body b], e, ?_, k3.1, ?_⟩
    · intro e he; simp at he; subst he; simp
    · rw [k3.2]; rfl
  · cases k3

/-- C24: a response of a connection that is not kept has been completed, control is back in the event loop, and bytes are
still unsent. -/
example : ∃ s, Reach Gentle s ∧ s.stack = [] ∧ s.c.fault = none ∧ MustClose s.c.log ∧ ∃ d, s.c.dev = some d ∧ 0 < d.pending := by
  obtain ⟨t, h1, h2⟩ := exists_of_endsIn (allowed := Gentle)
    (ls := toCompletion b!"HTTP/1.0" ++ [.ret] ++ taus 3 ++ [.tau 7, .ret] ++ taus 2 ++ [.ret])
    (p := fun s => s.stack == [] && s.c.fault == none && (s.c.dev.any fun d => decide (0 < d.pending)) && match s.c.log with
      | [_, _, _, .head h, .body b, .completed] => !h.keepAlive
      | _ => false) (by decide +kernel)
  simp only [Bool.and_eq_true, beq_iff_eq] at h2
  obtain ⟨⟨⟨k1, k2⟩, k4⟩, k3⟩ := h2
  obtain ⟨d, hd, k4⟩ := (Option.any_eq_true _ _).1 k4
  split at k3
  · rename_i x y z h b e
    refine ⟨t, h1, k1, k2, .inr ⟨[x, y, z], h, [.body b], [], by rw [e]; rfl, ?_, by simp [OnlyRecv], by simpa using k3⟩, d, hd, by simpa using k4⟩
    intro e he; simp at he; subst he; simp
  · cases k3

/-- C25: a connection waiting for the content of a request that asks for the interim response. -/
example : ∃ s, Reach Gentle s ∧ Waiting s ∧ interimSince s.c.log = true := by
  obtain ⟨t, h1, h2⟩ := exists_of_endsIn (allowed := Gentle)
    (ls := [.init, .recv b!"PUT /a HTTP/1.1\r\nExpect: 100-Continue\r\nContent-Length: 3\r\n\r\nab", .call .processInput] ++ taus 3)
    (p := fun s => s.stack == [] && s.c.fault == none && unread s.c == [] && s.c.st == .receivingContent && interimSince s.c.log)
    (by decide +kernel)
  simp only [Bool.and_eq_true, beq_iff_eq] at h2
  exact ⟨t, h1, ⟨h2.1.1.1.1, h2.1.1.1.2, h2.1.1.2, .inr h2.1.2⟩, h2.2⟩

end Pillow.Props
