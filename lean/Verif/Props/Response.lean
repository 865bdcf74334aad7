import Verif.Lemmas.Head
import Verif.Lemmas.QtInt
import Verif.Props.Helpers
set_option linter.unusedSimpArgs false
set_option linter.unusedVariables false
/-!
# C18–C23, C50: responses

A response is located in the log by its head: `s.c.log = a ++ .head h :: b` where `b` contains no further head.  The
request it answers is the last one in `a`.
-/
namespace Pillow.Props
open Pillow Pillow.Spec

def NoHead (es : List Ev) : Prop := ∀ e ∈ es, ∀ h, e ≠ .head h
def NotEnded (es : List Ev) : Prop := ∀ e ∈ es, e ≠ .completed ∧ ∀ f u, e ≠ .closed f u

/-- A call followed by the execution of its first stretch. -/
theorem run_call {s : Conf} (he : s.inEnv = true) (hf : s.c.fault = none) (a : Call) (k : Nat) (ls : List Label) :
    s.run (.call a :: .tau k :: ls) = Conf.run ⟨(exec k a.instr s.c).1, (exec k a.instr s.c).2 ++ s.stack⟩ ls := by
  have h1 : s.step (.call a) = some ⟨s.c, a.instr :: s.stack⟩ := by simp [Conf.step, hf, he]
  have h2 : Conf.step ⟨s.c, a.instr :: s.stack⟩ (.tau k) = some ⟨(exec k a.instr s.c).1, (exec k a.instr s.c).2 ++ s.stack⟩ := by
    cases a <;> simp [Conf.step, hf, Call.instr]
  rw [Conf.run, h1, Option.bind_some, Conf.run, h2, Option.bind_some]

theorem run_tau {c : Conn} {i : Instr} {rest : List Instr} (hi : i ≠ .env) (hf : c.fault = none) (k : Nat) (ls : List Label) :
    Conf.run ⟨c, i :: rest⟩ (.tau k :: ls) = Conf.run ⟨(exec k i c).1, (exec k i c).2 ++ rest⟩ ls := by
  have : Conf.step ⟨c, i :: rest⟩ (.tau k) = some ⟨(exec k i c).1, (exec k i c).2 ++ rest⟩ := by
    cases i <;> first | exact absurd rfl hi | simp [Conf.step, hf]
  rw [Conf.run, this, Option.bind_some]

theorem writeContent_writes {c : Conn} {d : Dev} {ct : Bytes} (h1 : c.st = .sendingContent) (h2 : c.respLen ≠ 0)
    (h3 : ¬ (c.respLen > 0 ∧ (ct.length : Int) + c.sent > c.respLen)) (h4 : ct ≠ []) (h5 : c.viewsValid = true)
    (h6 : c.req.method ≠ b!"HEAD") (hd : c.dev = some d) : c.writeContent ct =
    ({ c with sent := c.sent + ct.length, dev := some { d with pending := d.pending + (if c.chunked then Ev.chunk ct else Ev.body ct).wire.length }, log := c.log ++ [if c.chunked then .chunk ct else .body ct] },
      if ((c.sent + ct.length : Nat) : Int) = c.respLen then [.completed] else []) := by
  have hpos : ct.length > 0 := List.length_pos_iff.2 h4
  have hh : c.isHead = false := by simpa [Conn.isHead] using h6
  unfold Conn.writeContent
  rw [if_neg (by simp [h1]), if_neg h2, if_neg h3, if_pos hpos]
  simp only [readView_valid h5, hh, Bool.false_eq_true, if_false, Conn.write, hd]
  split <;> rfl

/-! ### C18 -/

/-- C18: with a declared length, never more content than declared is written, and it is written as is (not chunked). -/
theorem C18_never_exceeds (s : Conf) (hr : Reach Proper s) (a b : List Ev) (h : RespHead) (e : s.c.log = a ++ .head h :: b)
    (hb : NoHead b) (hl : 0 ≤ h.len) :
    ((contentOf b).length : Int) ≤ h.len ∧ .lastChunk ∉ b ∧ ∀ bs, .chunk bs ∉ b ∨ bs = [] := by
  obtain ⟨-, ph, hruns⟩ := reach_log hr
  obtain ⟨r, h1, ⟨lenIn, st, hs, hl', hbh⟩, h3, h4⟩ := head_split hruns e
  have hch : h.chunked = false := by
    cases hc : h.chunked with
    | false => rfl
    | true => have := (buildHead_facts hbh).2 hc; omega
  have key : ∀ b1, Writing r h b1 → ((contentOf b1).length : Int) ≤ h.len ∧ .lastChunk ∉ b1 ∧ ∀ bs, .chunk bs ∉ b1 := by
    intro b1 w
    refine ⟨w.bound hl, fun hm => ?_, fun bs hm => ?_⟩
    · rcases w.only _ hm with ⟨_, k⟩ | ⟨_, k, _⟩ | ⟨_, k, _⟩ | ⟨_, k⟩
      · cases k
      · cases k
      · cases k
      · rw [hch] at k; cases k
    · rcases w.only _ hm with ⟨_, k⟩ | ⟨_, k, _⟩ | ⟨_, k, k'⟩ | ⟨k, _⟩
      · cases k
      · cases k
      · rw [hch] at k'; cases k'
      · cases k
  rcases response_shape h4 hb with hn | ⟨b1, ev, b2, m, m', rfl, k2, k3, k4, k5, k6, k7, k8, k9⟩
  · obtain ⟨w1, w2, w3⟩ := key b (writing_path r h b h4 hn).1
    exact ⟨w1, w2, fun bs => .inl (w3 bs)⟩
  · obtain ⟨w1, w2, w3⟩ := key b1 (writing_path r h b1 k3 k2).1
    refine ⟨by rw [k6]; exact w1, ?_, fun bs => ?_⟩
    · intro hm
      rcases List.mem_append.1 hm with hm | hm
      · exact w2 hm
      · rcases List.mem_cons.1 hm with hm | hm
        · rcases k7 with ⟨k, -⟩ | ⟨u, k, -⟩ <;> rw [k] at hm <;> cases hm
        · exact (k8 _ hm).2.1 rfl
    · by_cases hm : Ev.chunk bs ∈ b1 ++ ev :: b2
      · rcases List.mem_append.1 hm with hm | hm
        · exact absurd hm (w3 bs)
        · rcases List.mem_cons.1 hm with hm | hm
          · rcases k7 with ⟨k, -⟩ | ⟨u, k, -⟩ <;> rw [k] at hm <;> cases hm
          · exact .inr (k8 _ hm).1
      · exact .inl hm

/-- C18: when the response to a request other than HEAD is completed, exactly the declared number of bytes has been
written. -/
theorem C18_complete_exact (s : Conf) (hr : Reach Proper s) (a b d : List Ev) (h : RespHead) (r : ReqView)
    (e : s.c.log = a ++ .head h :: b ++ .completed :: d) (hb : NoHead b) (hreq : (readys a).getLast? = some r)
    (hm : r.method ≠ b!"HEAD") (hl : 0 ≤ h.len) : ((contentOf b).length : Int) = h.len := by
  obtain ⟨-, ph, hruns⟩ := reach_log hr
  rw [List.append_assoc, List.cons_append] at e
  obtain ⟨r', h1, ⟨lenIn, st, hs, hl', hbh⟩, h3, h4⟩ := head_split hruns e
  rw [hreq, Option.some.injEq] at h1
  subst h1
  obtain ⟨k1, k2, m, k3, k4⟩ := response_completed h4 hb
  obtain ⟨-, st⟩ := writing_path r h b k3 k1
  rcases k4 with rfl | ⟨n, rfl, k4, -⟩
  · rcases st with ⟨k, -⟩ | ⟨-, st⟩
    · cases k
    · rcases st with st | st | ⟨st, -⟩
      · exact absurd st hm
      · exact st.symm
      · have := (buildHead_facts hbh).2 st; omega
  · omega

/-- C18: whenever control is outside the connection and the declared number of bytes has been written (or the request
is HEAD), `requestCompleted` has been emitted. -/
theorem C18_completes_at_once (s : Conf) (hr : Reach Proper s) (he : s.inEnv = true) (hf : s.c.fault = none) (a b : List Ev)
    (h : RespHead) (r : ReqView) (e : s.c.log = a ++ .head h :: b) (hb : NoHead b) (hreq : (readys a).getLast? = some r)
    (hc : ((contentOf b).length : Int) = h.len ∨ r.method = b!"HEAD") : .completed ∈ b := by
  obtain ⟨ph, hruns, hne, -⟩ := reach_phase hr he hf
  obtain ⟨r', h1, -, h3, h4⟩ := head_split hruns e
  rw [hreq, Option.some.injEq] at h1
  subst h1
  have key : ∀ b1 n, Path true (.begin r h) b1 (.sending r h n) → (∀ e ∈ b1, e ≠ .completed ∧ ∀ f u, e ≠ .closed f u) →
      contentOf b1 = contentOf b → False := by
    intro b1 n p1 p2 p3
    obtain ⟨-, st⟩ := writing_path r h b1 p1 p2
    rcases st with ⟨k, s1, s2, s3, -⟩ | ⟨k, -⟩
    · rw [p3] at s3
      rcases hc with hc | hc
      · have := s3 (by omega); omega
      · exact s2 hc
    · cases k
  rcases response_shape h4 hb with hn | ⟨b1, ev, b2, m, m', rfl, k2, k3, k4, k5, k6, k7, k8, k9⟩
  · obtain ⟨-, st⟩ := writing_path r h b h4 hn
    rcases st with ⟨rfl, -⟩ | ⟨rfl, -⟩
    · exact (key b _ h4 hn rfl).elim
    · exact absurd rfl (hne _ _)
  · rcases k7 with ⟨rfl, -⟩ | ⟨u, -, -, n, rfl⟩
    · simp
    · exact (key b1 n k3 k2 k6.symm).elim

/-- C18: `writeContent` while a response with declared length is being written: what does not fit is not written, nothing
changes; what fits is written as is. -/
theorem C18_writeContent (s : Conf) (hr : Reach Proper s) (he : s.inEnv = true) (hf : s.c.fault = none) (a b : List Ev)
    (h : RespHead) (e : s.c.log = a ++ .head h :: b) (hb : NotEnded b) (hl : 0 ≤ h.len) (ct : Bytes) (k : Nat) :
    (h.len < (contentOf b).length + ct.length → s.run [.call (.writeContent ct), .tau k] = some s) ∧
    ((contentOf b).length + ct.length ≤ h.len → ct ≠ [] →
      ∃ s', s.run [.call (.writeContent ct), .tau k] = some s' ∧ s'.c.log = s.c.log ++ [.body ct]) := by
  obtain ⟨h1, h2, h3, h4, h5, h6, h7, h8, -⟩ := writing_state hr he hf e hb
  obtain ⟨-, ph, hruns⟩ := reach_log hr
  obtain ⟨r', -, ⟨lenIn, st, hs, hl', hbh⟩, -⟩ := head_split hruns e
  have hch : s.c.chunked = false := by
    rw [h3.chunked]
    cases hc : h.chunked with
    | false => rfl
    | true => have := (buildHead_facts hbh).2 hc; omega
  rw [run_call he hf]
  simp only [Call.instr, exec]
  constructor
  · intro hgt
    have : s.c.writeContent ct = (s.c, []) := by
      unfold Conn.writeContent
      rw [if_neg (by simp [h2]), if_neg (by rw [h3.len]; exact h4), if_pos (by rw [h3.len, h3.sent]; omega)]
    rw [this]; rfl
  · intro hle hne
    obtain ⟨d, hd⟩ := Option.isSome_iff_exists.1 h8
    rw [writeContent_writes h2 (by rw [h3.len]; exact h4) (by rw [h3.len, h3.sent]; omega) hne h7 h5 hd, hch]
    exact ⟨_, rfl, rfl⟩

/-! ### C19 -/

/-- C19: the body of a completed chunked response decodes to the content written, with nothing left over. -/
theorem C19_decodes (s : Conf) (hr : Reach Proper s) (a b d : List Ev) (h : RespHead) (r : ReqView)
    (e : s.c.log = a ++ .head h :: b ++ .completed :: d) (hb : NoHead b) (hreq : (readys a).getLast? = some r)
    (hm : r.method ≠ b!"HEAD") (hc : h.chunked = true) : Chunked (wireOf b) (contentOf b) [] := by
  obtain ⟨-, ph, hruns⟩ := reach_log hr
  rw [List.append_assoc, List.cons_append] at e
  obtain ⟨r', h1, ⟨lenIn, st, hs, hl', hbh⟩, h3, h4⟩ := head_split hruns e
  rw [hreq, Option.some.injEq] at h1
  subst h1
  have hlen := (buildHead_facts hbh).2 hc
  obtain ⟨k1, k2, m, k3, k4⟩ := response_completed h4 hb
  obtain ⟨-, st⟩ := writing_path r h b k3 k1
  rcases k4 with rfl | ⟨n, rfl, -, k4⟩
  · rcases st with ⟨k, -⟩ | ⟨-, st⟩
    · cases k
    · rcases st with st | st | ⟨-, st⟩
      · exact absurd st hm
      · omega
      · simpa using st []
  · rw [hc] at k4; cases k4

/-- The decoding is unambiguous. -/
theorem C19_unambiguous {w c r c' r' : Bytes} (h : Chunked w c r) (h' : Chunked w c' r') : c = c' ∧ r = r' := chunked_unique h h'

/-- C19: `writeContent` on a chunked response: non-empty content is written as one chunk, empty content writes nothing (in
particular no terminating chunk), `endContent` writes the final chunk and completes. -/
theorem C19_calls (s : Conf) (hr : Reach Proper s) (he : s.inEnv = true) (hf : s.c.fault = none) (a b : List Ev)
    (h : RespHead) (e : s.c.log = a ++ .head h :: b) (hb : NotEnded b) (hc : h.chunked = true) (k k' : Nat) :
    (∀ ct, ct ≠ [] → ∃ s', s.run [.call (.writeContent ct), .tau k] = some s' ∧ s'.inEnv = true ∧ s'.c.log = s.c.log ++ [.chunk ct]) ∧
    s.run [.call (.writeContent []), .tau k] = some s ∧
    ∃ s', s.run [.call .endContent, .tau k, .tau k'] = some s' ∧ s'.inEnv = true ∧ s'.c.log = s.c.log ++ [.lastChunk, .completed] := by
  obtain ⟨h1, h2, h3, h4, h5, h6, h7, h8, -⟩ := writing_state hr he hf e hb
  obtain ⟨-, ph, hruns⟩ := reach_log hr
  obtain ⟨r', -, ⟨lenIn, st, hs, hl', hbh⟩, -⟩ := head_split hruns e
  have hlen := (buildHead_facts hbh).2 hc
  have hch : s.c.chunked = true := by rw [h3.chunked]; exact hc
  have hrl : s.c.respLen = -1 := h3.len.trans hlen
  have hh : s.c.isHead = false := by simpa [Conn.isHead] using h5
  obtain ⟨d, hd⟩ := Option.isSome_iff_exists.1 h8
  refine ⟨?_, ?_, ?_⟩
  · intro ct hne
    rw [run_call he hf]
    simp only [Call.instr, exec]
    rw [writeContent_writes h2 (by rw [hrl]; decide) (by rw [hrl]; omega) hne h7 h5 hd]
    have hne' : ¬ (((s.c.sent + ct.length : Nat) : Int) = s.c.respLen) := by rw [hrl]; omega
    simp only [hch, hne', if_true, if_false]
    exact ⟨_, rfl, he, rfl⟩
  · rw [run_call he hf]
    simp only [Call.instr, exec]
    have : s.c.writeContent [] = (s.c, []) := by
      unfold Conn.writeContent
      rw [if_neg (by simp [h2]), if_neg (by rw [hrl]; decide), if_neg (by rw [hrl]; omega), if_neg (by simp)]
    rw [this]; rfl
  · rw [run_call he hf]
    simp only [Call.instr, exec]
    have : s.c.endContent = (s.c.write .lastChunk, [.completed]) := by
      unfold Conn.endContent
      rw [if_neg (by simp [h2]), if_neg (by rw [hrl]; decide)]
      simp [hch]
    rw [this, write_some hd]
    rw [List.singleton_append, run_tau (by simp) (by exact hf)]
    have hst : s.c.st ≠ .completed := by rw [h2]; simp
    simp only [exec, Conn.complete]
    rw [if_neg hst]
    exact ⟨_, rfl, rfl, by simp [Conn.emit]⟩

/-! ### the head: C20, C22, C23, C50 -/

/-- C23, C50: the length a handler declares is the decimal number in its last `Content-Length` header, if it is one and fits 64 bits; otherwise it is unknown. -/
theorem C23_declared (dflt : Int) (hs : Headers) (h : Header) (hl : lastHeader hs b!"content-length" = some h) :
    (∀ n : Int, -9223372036854775808 ≤ n → n < 9223372036854775808 → SaysNumber h.value n → declaredLength dflt hs = n) ∧
    ((∀ n : Int, -9223372036854775808 ≤ n → n < 9223372036854775808 → ¬ SaysNumber h.value n) → declaredLength dflt hs = -1) := by
  unfold declaredLength
  rw [hl]
  refine ⟨fun n h1 h2 h3 => ?_, fun hn => ?_⟩
  · dsimp only; rw [(qtToLongLong_iff h.value n).2 ⟨h3, h1, h2⟩]; rfl
  · dsimp only
    cases k : qtToLongLong h.value with
    | none => rfl
    | some n => obtain ⟨k1, k2, k3⟩ := (qtToLongLong_iff h.value n).1 k; exact absurd k1 (hn n k2 k3)

/-- Calling `writeHeaders` while a request is waiting for its response writes one head, and decides by the headers given;
without `Content-Length` the length is unknown. -/
theorem C23_writeHeaders_partial (s : Conf) (hr : Reach Proper s) (he : s.inEnv = true) (hf : s.c.fault = none)
    (hst : s.c.st = .sendingHeaders) (status : Int) (hs : Headers) (k : Nat)
    (hl : -2147483648 < declaredLength (-1) hs ∧ declaredLength (-1) hs < 2147483648) :
    ∃ s' h, s.run [.call (.writeHeaders status hs), .tau k] = some s' ∧ s'.c.log = s.c.log ++ [.head h] ∧
      HeadSpec s.c.req (-1) status hs h := by
  obtain ⟨ph, hruns, hne, hph⟩ := reach_phase hr he hf
  rcases hph with ⟨hset, hcore⟩ | ⟨-, e | ⟨e, -⟩⟩
  · obtain ⟨rfl, h2, h3, h4, h5, h6, h7⟩ := (settled_sendH hst).1 hset
    obtain ⟨d, hd⟩ := Option.isSome_iff_exists.1 (hcore.dev (by rw [hst]; simp) (by rw [hst]; simp))
    have hbuf : s.c.respBuf = [] := hcore.resp (inEnv_head he).2
    rw [run_call he hf]
    simp only [Call.instr, exec]
    unfold Conn.writeHeaders
    rw [if_neg (by simp [hst])]
    simp only [readView_valid h6, hbuf, h3, h4, h5]
    have hsome : (buildHead [] (s.c.req.version == b!"HTTP/1.1") s.c.req (-1) false status hs).isSome = true := by
      unfold buildHead
      simp only [List.nil_append]
      have sp := scan_spec hs { out := statusLine s.c.req status, len := -1 }
      rw [sp.len, lengthLine_isSome _ hl]
      rfl
    obtain ⟨h, hh⟩ := Option.isSome_iff_exists.1 hsome
    rw [hh]
    simp only [Conn.write, hd]
    exact ⟨_, h, rfl, rfl, head_spec hh⟩
  · rw [hst] at e; cases e
  · rw [hst] at e; cases e

/-- Every head in a log follows the specification, for the request last handed out. -/
theorem head_in_log (s : Conf) (hr : Reach Proper s) (a b : List Ev) (h : RespHead) (e : s.c.log = a ++ .head h :: b) (r : ReqView)
    (hreq : (readys a).getLast? = some r) : ∃ lenIn, -1 ≤ lenIn ∧ HeadSpec r lenIn h.status h.headers h := by
  obtain ⟨-, ph, hruns⟩ := reach_log hr
  obtain ⟨r', h1, ⟨lenIn, st, hs, hl', hbh⟩, -⟩ := head_split hruns e
  rw [hreq, Option.some.injEq] at h1
  subst h1
  have := head_spec hbh
  obtain ⟨rfl, rfl⟩ : h.status = st ∧ h.headers = hs := ⟨this.code, this.hdrs⟩
  exact ⟨lenIn, hl', this⟩

/-- C20: the decision. -/
theorem C20_decision (s : Conf) (hr : Reach Proper s) (a b : List Ev) (h : RespHead) (e : s.c.log = a ++ .head h :: b) (r : ReqView)
    (hreq : (readys a).getLast? = some r) :
    (h.keepAlive = true ↔ ClientKeeps r ∧ (0 ≤ h.len ∨ h.chunked = true) ∧ ¬ HandlerCloses h.headers) ∧
    (h.chunked = true ↔ r.version = b!"HTTP/1.1" ∧ h.len = -1 ∧ HandlerChunks h.headers) := by
  obtain ⟨lenIn, -, sp⟩ := head_in_log s hr a b h e r hreq
  exact ⟨sp.keepAlive, sp.chunked⟩

/-- C20, C23: the layout of the head, for a known status and a length in the range of `int`: status line, the
headers of the handler in order, `Content-Length` iff the length is known, `Content-Type`, `Connection` according to
the decision, `Transfer-Encoding`, and an empty line. -/
theorem C23_layout_partial (s : Conf) (hr : Reach Proper s) (a b : List Ev) (h : RespHead) (e : s.c.log = a ++ .head h :: b) (r : ReqView)
    (hreq : (readys a).getLast? = some r) (hst : h.status ∈ rfcCodes) (hl : -2147483648 < h.len ∧ h.len < 2147483648) :
    ∃ code reason len, code.length = 3 ∧ readInt 10 code = some h.status ∧ reason ≠ [] ∧ readInt 10 len = some h.len ∧ Canonical len ∧
    h.bytes = r.version ++ b!" " ++ code ++ b!" " ++ reason ++ b!"\r\n" ++ otherLines h.headers ++
      (if h.len = -1 then [] else b!"Content-Length: " ++ len ++ b!"\r\n") ++ typeHeader h.headers h.len ++
      connectionHeader r h.keepAlive ++ encodingHeader h.headers h.chunked ++ b!"\r\n" := by
  obtain ⟨lenIn, -, sp⟩ := head_in_log s hr a b h e r hreq
  obtain ⟨cl, h1, h2⟩ := sp.bytes
  rw [lengthLine_isSome _ hl, Option.some.injEq] at h1
  obtain ⟨reason, k1, k2, code, k3, k4, k5⟩ := (C43_table h.status).1 hst
  refine ⟨code, reason, renderInt 10 h.len, k3, k4, k1, (readInt_renderInt 10 (by decide) (by decide) _).1,
    (readInt_renderInt 10 (by decide) (by decide) _).2, ?_⟩
  rw [h2, ← h1]
  unfold statusLine statusText
  rw [k5]
  simp

/-- C22, for known status codes: the status line is version, code, reason. -/
theorem C22_status_line_partial (s : Conf) (hr : Reach Proper s) (a b : List Ev) (h : RespHead) (e : s.c.log = a ++ .head h :: b) (r : ReqView)
    (hreq : (readys a).getLast? = some r) (hst : h.status ∈ rfcCodes) :
    ∃ code reason rest, code.length = 3 ∧ readInt 10 code = some h.status ∧ reason ≠ [] ∧ getStatusMessage h.status = some reason ∧
    h.bytes = r.version ++ b!" " ++ code ++ b!" " ++ reason ++ b!"\r\n" ++ rest := by
  obtain ⟨lenIn, -, sp⟩ := head_in_log s hr a b h e r hreq
  obtain ⟨cl, h1, h2⟩ := sp.bytes
  obtain ⟨reason, k1, k2, code, k3, k4, k5⟩ := (C43_table h.status).1 hst
  obtain ⟨tail, h2⟩ : ∃ tail, h.bytes = statusLine r h.status ++ tail := 
    ⟨otherLines h.headers ++ cl ++ typeHeader h.headers h.len ++ connectionHeader r h.keepAlive ++ encodingHeader h.headers h.chunked ++ b!"\r\n",
      by rw [h2]; simp⟩
  refine ⟨code, reason, tail, k3, k4, k1, k2, ?_⟩
  rw [h2]
  unfold statusLine statusText
  rw [k5]
  simp

/-- A request and a response head with the given status and headers. -/
def headRun (status : Int) (hs : Headers) : List Label :=
  [.init, .recv b!"GET /a HTTP/1.1\r\n\r\n", .call .processInput] ++ taus 3 ++ [.call (.writeHeaders status hs)] ++ taus 3

/-- C22 is false of the code for unknown status codes: the status line has no number. -/
theorem C22_violation : ∃ s, Reach Gentle s ∧ ∃ h, Ev.head h ∈ s.c.log ∧ h.status = 299 ∧
    b!"HTTP/1.1 Internal Server Error\r\n" <+: h.bytes := by
  obtain ⟨t, h1, h2⟩ := exists_of_endsIn (allowed := Gentle) (ls := headRun 299 [])
    (p := fun s => s.c.log.any fun e => match e with
      | .head h => h.status == 299 && b!"HTTP/1.1 Internal Server Error\r\n".isPrefixOf h.bytes
      | _ => false) (by decide +kernel)
  rw [List.any_eq_true] at h2
  obtain ⟨e, h3, h4⟩ := h2
  split at h4
  · rename_i h
    simp only [Bool.and_eq_true, beq_iff_eq] at h4
    exact ⟨t, h1, h, h3, h4.1, List.isPrefixOf_iff_prefix.1 h4.2⟩
  · cases h4

/-- C50, for lengths in the range of `int`: the length announced is the length. -/
theorem C50_length_partial (s : Conf) (hr : Reach Proper s) (a b : List Ev) (h : RespHead) (e : s.c.log = a ++ .head h :: b) (r : ReqView)
    (hreq : (readys a).getLast? = some r) (hl : 0 ≤ h.len ∧ h.len < 2147483648) :
    ∃ pre len post, readInt 10 len = some h.len ∧ Canonical len ∧ h.bytes = pre ++ b!"Content-Length: " ++ len ++ b!"\r\n" ++ post := by
  obtain ⟨lenIn, -, sp⟩ := head_in_log s hr a b h e r hreq
  obtain ⟨cl, h1, h2⟩ := sp.bytes
  rw [lengthLine_isSome _ (by omega), Option.some.injEq, if_neg (by omega)] at h1
  refine ⟨statusLine r h.status ++ otherLines h.headers, renderInt 10 h.len,
    typeHeader h.headers h.len ++ connectionHeader r h.keepAlive ++ encodingHeader h.headers h.chunked ++ b!"\r\n",
    (readInt_renderInt 10 (by decide) (by decide) _).1, (readInt_renderInt 10 (by decide) (by decide) _).2, ?_⟩
  rw [h2, ← h1]
  simp

/-- C50 is false of the code for lengths from 2 GiB on: a length of 4294967301 is announced as 5. -/
theorem C50_violation : ∃ s, Reach Gentle s ∧ ∃ h, Ev.head h ∈ s.c.log ∧ h.len = 4294967301 ∧
    h.bytes = b!"HTTP/1.1 200 OK\r\nContent-Length: 5\r\nContent-Type: text/plain\r\n\r\n" := by
  obtain ⟨t, h1, h2⟩ := exists_of_endsIn (allowed := Gentle) (ls := headRun 200 [⟨b!"Content-Length", b!"4294967301"⟩])
    (p := fun s => s.c.log.any fun e => match e with
      | .head h => h.len == 4294967301 &&
          h.bytes == b!"HTTP/1.1 200 OK\r\nContent-Length: 5\r\nContent-Type: text/plain\r\n\r\n"
      | _ => false) (by decide +kernel)
  rw [List.any_eq_true] at h2
  obtain ⟨e, h3, h4⟩ := h2
  split at h4
  · rename_i h
    simp only [Bool.and_eq_true, beq_iff_eq] at h4
    exact ⟨t, h1, h, h3, h4.1, h4.2⟩
  · cases h4

/-- And a length of exactly 2 GiB is undefined behaviour. -/
theorem C50_overflow : ∃ s, Reach Gentle s ∧ s.c.fault = some .overflow := by
  obtain ⟨t, h1, h2⟩ := exists_of_endsIn (allowed := Gentle)
    (ls := (headRun 200 [⟨b!"Content-Length", b!"2147483648"⟩]).dropLast.dropLast)
    (p := fun s => s.c.fault == some .overflow) (by decide +kernel)
  exact ⟨t, h1, by simpa using h2⟩

end Pillow.Props
