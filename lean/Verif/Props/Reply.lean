import Verif.Lemmas.ReplyParser
/-!
# C36, C55: what the response parser reports for well-formed responses
-/
namespace Pillow.Props
open Pillow Pillow.Spec

/-- **C55.** A well-formed response is reported exactly: one `messageBegin`, one `headersComplete` with its status and headers, one
`messageComplete` with its content, and nothing else; the accessors show the same afterwards. -/
theorem C55_response {r : RespParser} (hr : Ready r) {m : Response} (hw : m.Wf) :
    (deliver r m.render).d.hooks = r.d.hooks ++ m.report ∧ (deliver r m.render).hasError = false ∧
    (deliver r m.render).statusCode = num m.head.status ∧ (deliver r m.render).headers = m.head.shown ∧ (deliver r m.render).content = m.content ∧
    ((deliver r m.render).shouldKeepAlive = true ↔ m.head.Keeps) ∧ (deliver r m.render).completesOnEof = false := by
  obtain ⟨p2, hf, he⟩ := deliver_response (ready_idle hr) m hw
  rw [he]
  refine ⟨rfl, hasError_iff.2 (Or.inl hf.ok), hf.knows.status, rfl, rfl, ?_, hf.eof⟩
  show p2.shouldKeepAlive = true ↔ _
  rw [hf.keep]; simp

/-- **C55.** `inject` consumes exactly the response, whatever follows it. -/
theorem C55_consumed {r : RespParser} (hr : Ready r) {m : Response} (hw : m.Wf) (rest : Bytes) :
    (r.inject (m.render ++ rest)).2 = m.render.length ∧ (r.inject (m.render ++ rest)).1.d.hooks = r.d.hooks ++ m.report := by
  obtain ⟨p2, -, he⟩ := inject_response (ready_idle hr) m hw rest
  rw [he]
  exact ⟨rfl, rfl⟩

theorem sequence_aux : ∀ (ms : List Response) (r : RespParser), Ready r → (∀ m ∈ ms, m.Wf ∧ m.head.Keeps) →
    (deliver r (ms.map Response.render).flatten).d.hooks = r.d.hooks ++ (ms.map Response.report).flatten ∧
    (deliver r (ms.map Response.render).flatten).hasError = false ∧ Idle (deliver r (ms.map Response.render).flatten)
  | [], r, hr, _ => by
    simp only [List.map_nil, List.flatten_nil, deliver_nil, List.append_nil]
    exact ⟨trivial, hasError_iff.2 (Or.inl (ready_idle hr).ok), ready_idle hr⟩
  | m :: ms, r, hr, h => by
    obtain ⟨hw, hk⟩ := h m (by simp)
    simp only [List.map_cons, List.flatten_cons]
    obtain ⟨i1, i2, i3⟩ := sequence_aux ms (deliver r m.render) (.reply m hr hw hk) (fun x hx => h x (by simp [hx]))
    have ha := deliver_append m.render (ms.map Response.render).flatten r (ready_used_safe hr).1 (ready_used_safe hr).2
    have he : (deliver r (m.render ++ (ms.map Response.render).flatten)).hasError = false := by
      unfold RespParser.hasError at i2 ⊢; rw [ha.parser]; exact i2
    have hs := ha.same he
    rw [hs, i1, (C55_response hr hw).1]
    exact ⟨by simp, i2, i3⟩

/-- **C55.** Any number of responses on one connection, and any division of their bytes. -/
theorem C55_sequence {r : RespParser} (hr : Ready r) {ms : List Response} (hw : ∀ m ∈ ms, m.Wf ∧ m.head.Keeps) {segs : List Bytes}
    (hs : segs.flatten = (ms.map Response.render).flatten) :
    (deliverAll r segs).d.hooks = r.d.hooks ++ (ms.map Response.report).flatten ∧ (deliverAll r segs).hasError = false := by
  obtain ⟨h1, h2, -⟩ := sequence_aux ms r hr hw
  have ha := deliverAll_flatten segs r (ready_used_safe hr).1 (ready_used_safe hr).2
  rw [hs] at ha
  exact ⟨ha.hooks.symm.trans h1, by unfold RespParser.hasError at h2 ⊢; rw [← ha.parser]; exact h2⟩

/-- **C55.** A response without announced length: its content is what arrives until `injectEof`. -/
theorem C55_until_eof {r : RespParser} (hr : Ready r) {h : RHead} (hw : h.Wf) (he : EndsWithConnection h) (content : Bytes) {segs : List Bytes}
    (hs : segs.flatten = h.render ++ content) :
    (deliverAll r segs).d.hooks = r.d.hooks ++ [.begin, .headersComplete (num h.status) h.shown] ∧ (deliverAll r segs).content = content ∧
    (deliverAll r segs).completesOnEof = true ∧ (deliverAll r segs).injectEof.d.hooks = r.d.hooks ++ h.reportEof content ∧
    (deliverAll r segs).injectEof.hasError = false := by
  obtain ⟨p2, -, hn, -, hok, e1, e2⟩ := deliver_eof (ready_idle hr) h hw he content
  have ha := deliverAll_flatten segs r (ready_used_safe hr).1 (ready_used_safe hr).2
  rw [hs] at ha
  have hsame := ha.same (by rw [e1, hasError_iff]; exact Or.inl hok)
  rw [← hsame, e2, e1]
  exact ⟨rfl, rfl, hn, rfl, hasError_iff.2 (Or.inl hok)⟩

/-! ### Concrete responses -/

/-- `HTTP/1.1 200 OK`, a header, five bytes. -/
def demoSized : Response where
  head := { major := b!"1", minor := b!"1", status := b!"200", reason := b!" OK",
            headers := [⟨b!"Content-Length", b!" ", b!"5"⟩, ⟨b!"X-A", b!"", b!"b c"⟩] }
  wire := b!"hello"
  content := b!"hello"

/-- A chunked response with an extension. -/
def demoChunked : Response where
  head := { major := b!"1", minor := b!"1", status := b!"200", reason := b!"", headers := [⟨b!"transfer-encoding", b!" ", b!"Chunked"⟩] }
  wire := b!"3;x=y\r\nabc\r\n0A\r\n0123456789\r\n0\r\n\r\n"
  content := b!"abc0123456789"

/-- A response that ends with the connection. -/
def demoEof : RHead := { major := b!"1", minor := b!"0", status := b!"404", reason := b!" Not Found", headers := [] }

theorem text_dec (s : Bytes) (h : s.all (fun b => b != 13 && b != 10) = true) : ∀ b ∈ s, TextChar b := by
  intro b hb
  have := List.all_eq_true.1 h b hb
  simpa [TextChar] using this

theorem demoSized_wf : demoSized.Wf where
  head := {
    major := ⟨1, by decide +kernel, by decide⟩
    minor := ⟨1, by decide +kernel, by decide⟩
    status := ⟨200, by decide +kernel, by decide⟩
    reason := Or.inr ⟨b!"OK", rfl, text_dec _ (by decide +kernel)⟩
    headers := by
      intro x hx
      simp only [demoSized, List.mem_cons, List.not_mem_nil, or_false] at hx
      rcases hx with rfl | rfl
      · exact ⟨⟨by simp, by decide +kernel⟩, by decide, text_dec _ (by decide +kernel), by decide, by decide⟩
      · exact ⟨⟨by simp, by decide +kernel⟩, by decide, text_dec _ (by decide +kernel), by decide, by decide⟩
    lengths := by
      have : demoSized.head.lengths = [b!"5"] := by decide +kernel
      rw [this]
      intro v hv
      simp only [List.mem_singleton] at hv
      exact ⟨5, by rw [hv]; decide +kernel, by decide⟩
    noUpgrade := by decide +kernel
    size := by decide +kernel }
  body := .sized _ (by decide +kernel) (by decide +kernel)

theorem demoChunked_wf : demoChunked.Wf where
  head := {
    major := ⟨1, by decide +kernel, by decide⟩
    minor := ⟨1, by decide +kernel, by decide⟩
    status := ⟨200, by decide +kernel, by decide⟩
    reason := Or.inl rfl
    headers := by
      intro x hx
      simp only [demoChunked, List.mem_cons, List.not_mem_nil, or_false] at hx
      subst hx
      exact ⟨⟨by simp, by decide +kernel⟩, by decide, text_dec _ (by decide +kernel), by decide, by decide⟩
    lengths := by
      have : demoChunked.head.lengths = [] := by decide +kernel
      rw [this]
      intro v hv; simp at hv
    noUpgrade := by decide +kernel
    size := by decide +kernel }
  body := .chunked _ _ (by decide +kernel)
    (.chunk b!"3" b!";x=y" b!"abc" (b!"0A\r\n0123456789\r\n0\r\n\r\n") b!"0123456789" (by decide +kernel) (by simp) (by decide)
      (Or.inr ⟨59, b!"x=y", rfl, Or.inl rfl, text_dec _ (by decide +kernel)⟩) (by decide)
      (.chunk b!"0A" b!"" b!"0123456789" (b!"0\r\n\r\n") b!"" (by decide +kernel) (by simp) (by decide) (Or.inl rfl) (by decide)
        (.last b!"0" b!"" (by decide +kernel) (Or.inl rfl) (by decide))))

theorem demoEof_wf : demoEof.Wf ∧ EndsWithConnection demoEof := by
  refine ⟨{ major := ⟨1, by decide +kernel, by decide⟩, minor := ⟨0, by decide +kernel, by decide⟩, status := ⟨404, by decide +kernel, by decide⟩,
            reason := Or.inr ⟨b!"Not Found", rfl, text_dec _ (by decide +kernel)⟩, headers := (by intro x hx; cases hx),
            lengths := (by intro v hv; simp [RHead.lengths, demoEof] at hv), noUpgrade := (by intro x hx; cases hx), size := by decide +kernel }, ?_⟩
  exact ⟨by decide +kernel, by decide +kernel, by decide +kernel⟩

example : demoSized.head.Keeps ∧ demoChunked.head.Keeps := by decide +kernel

example : (deliver {} (demoChunked.render ++ demoSized.render)).d.hooks = demoChunked.report ++ demoSized.report := by
  have := (C55_sequence .new (ms := [demoChunked, demoSized]) (segs := [demoChunked.render ++ demoSized.render])
    (by simp only [List.mem_cons, List.not_mem_nil, or_false]; rintro m (rfl | rfl); exact ⟨demoChunked_wf, by decide +kernel⟩; exact ⟨demoSized_wf, by decide +kernel⟩)
    (by simp)).1
  simpa [deliverAll] using this

/-! ### C36 -/

/-- **C36** (partial: the earlier responses are well-formed ones without trailers, and `clear` is called between responses only).  What is
reported for a response does not depend on the earlier responses. -/
theorem C36_isolated_partial {r r' : RespParser} (hr : Ready r) (hr' : Ready r') {m : Response} (hw : m.Wf) :
    ∃ new, (deliver r m.render).d.hooks = r.d.hooks ++ new ∧ (deliver r' m.render).d.hooks = r'.d.hooks ++ new ∧
      (deliver r m.render).headers = (deliver r' m.render).headers ∧ (deliver r m.render).content = (deliver r' m.render).content :=
  ⟨m.report, (C55_response hr hw).1, (C55_response hr' hw).1, (C55_response hr hw).2.2.2.1.trans (C55_response hr' hw).2.2.2.1.symm,
    (C55_response hr hw).2.2.2.2.1.trans (C55_response hr' hw).2.2.2.2.1.symm⟩

example : Ready (deliver {} demoChunked.render) := .reply _ .new demoChunked_wf (by decide +kernel)
example : Ready (deliver {} (demoEof.render ++ b!"xyz")).injectEof.clear := .eof _ _ .new demoEof_wf.1 demoEof_wf.2

/-- A response with a trailer: RFC 2616 §3.6.1 allows it. -/
def demoTrailer : Bytes := b!"HTTP/1.1 200 OK\r\nTransfer-Encoding: chunked\r\n\r\n0\r\nTr: ailer\r\n\r\n"

/-- **C36 is violated** (1) by a response with trailers: it is reported without error, but its trailer ends up in the name and the value of
the first header of the next response; (2) by a response that is abandoned within a header, even if `clear()` is called; (3) by a header
line without colon. -/
theorem C36_violation :
    ((deliver {} demoTrailer).hasError = false ∧ (deliver {} demoTrailer).shouldKeepAlive = true ∧
      (deliver (deliver {} demoTrailer) demoSized.render).headers = [⟨b!"TrContent-Length", b!"ailer5"⟩, ⟨b!"X-A", b!"b c"⟩] ∧
      (deliver (deliver {} demoTrailer).clear demoSized.render).headers = [⟨b!"TrContent-Length", b!"ailer5"⟩, ⟨b!"X-A", b!"b c"⟩]) ∧
    ((deliver (deliver {} b!"HTTP/1.1 200 OK\r\nX-Old").clear demoSized.render).headers = [⟨b!"X-OldContent-Length", b!"5"⟩, ⟨b!"X-A", b!"b c"⟩]) ∧
    ((deliver {} b!"HTTP/1.1 204 No\r\nX-Old\r\n\r\n").hasError = false ∧
      (deliver (deliver {} b!"HTTP/1.1 204 No\r\nX-Old\r\n\r\n") demoSized.render).headers = [⟨b!"X-OldContent-Length", b!"5"⟩, ⟨b!"X-A", b!"b c"⟩]) := by
  decide +kernel

end Pillow.Props
