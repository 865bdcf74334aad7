import Verif.Lemmas.Agree
import Verif.Props.Reply
import Verif.Props.Flow
/-!
# C41: the responses of `HttpConnection`, read by `HttpResponseParser`
-/
namespace Pillow.Props
open Pillow Pillow.Spec

/-- The request has a version with numbers up to 999, which is repeated in the response. -/
def VersionOf (r : ReqView) (maj min : Bytes) : Prop := r.version = b!"HTTP/" ++ maj ++ b!"." ++ min ∧ Small maj ∧ Small min

theorem status_small {code : Bytes} {st : Int} (h : readInt 10 code = some st) (hs : st ∈ rfcCodes) : Small code ∧ num code = st.toNat := by
  have hpos : ∀ c ∈ rfcCodes, 0 < c ∧ c ≤ 999 := by decide
  obtain ⟨p1, p2⟩ := hpos st hs
  have hn : ∃ n : Nat, readNat 10 code = some n ∧ (n : Int) = st := by
    unfold readInt at h
    split at h
    · rename_i t
      cases hr : readNat 10 t with
      | none => simp [hr] at h
      | some n => simp [hr] at h; omega
    · cases hr : readNat 10 code with
      | none => simp [hr] at h
      | some n => simp [hr] at h; exact ⟨n, rfl, h⟩
  obtain ⟨n, h1, h2⟩ := hn
  exact ⟨⟨n, h1, by omega⟩, by rw [num_eq h1]; omega⟩

theorem reason_text {st : Int} (hs : st ∈ rfcCodes) {code reason : Bytes} (h : getStatusCodeAndMessage st = some (code ++ 32 :: reason)) : ∀ b ∈ reason, TextChar b := by
  have key : ∀ c ∈ rfcCodes, ((getStatusCodeAndMessage c).getD []).all (fun b => b != 13 && b != 10) = true := by decide +kernel
  have := key st hs
  rw [h, Option.getD_some] at this
  intro b hb
  have := List.all_eq_true.1 this b (by simp [hb])
  simpa [TextChar] using this

theorem head_grammar (s : Conf) (hr : Reach Proper s) (a b : List Ev) (h : RespHead) (e : s.c.log = a ++ .head h :: b) (r : ReqView)
    (hreq : (readys a).getLast? = some r) (hst : h.status ∈ rfcCodes) (hl : -1 ≤ h.len ∧ h.len < 2147483648) {maj min : Bytes} (hv : VersionOf r maj min)
    (hp : ∀ x ∈ h.headers, PlainHeader x) (hsz : h.bytes.length ≤ 80 * 1024 - 2) :
    ∃ H : RHead, H.Wf ∧ H.render = h.bytes ∧ num H.status = h.status.toNat ∧
      H.shown = sentHeaders r h.headers ((if h.len = -1 then none else some h.len.toNat).map (digits 10)) h.keepAlive h.chunked ∧
      (H.IsChunked ↔ h.chunked = true) ∧ H.announced = (if h.len = -1 then none else some h.len.toNat) := by
  obtain ⟨lenIn, -, sp⟩ := head_in_log s hr a b h e r hreq
  obtain ⟨cl, h1, h2⟩ := sp.bytes
  rw [lengthLine_isSome _ ⟨by omega, hl.2⟩, Option.some.injEq] at h1
  obtain ⟨reason, k1, k2, code, k3, k4, k5⟩ := (C43_table h.status).1 hst
  generalize hn : (if h.len = -1 then none else some h.len.toNat : Option Nat) = n
  have hlt : n.map (digits 10) = if h.len = -1 then none else some (renderInt 10 h.len) := by
    rw [← hn]
    by_cases hm : h.len = -1
    · simp [hm]
    · have hneg : ¬ h.len < 0 := by omega
      simp [hm, renderInt, hneg, Int.natAbs, Int.toNat]
      cases hc : h.len with
      | ofNat k => rfl
      | negSucc k => omega
  have hren := sent_render (r := r) (maj := maj) (min := min) (code := code) (reason := reason) h.headers h.len (n.map (digits 10)) h.keepAlive h.chunked hv.1 hlt hl.1
  have hbytes : (sentHead r maj min code reason h.headers (n.map (digits 10)) h.keepAlive h.chunked).render = h.bytes := by
    rw [hren, h2, ← h1]
    unfold statusLine statusText
    rw [k5]
    simp
  obtain ⟨c1, c2⟩ := status_small k4 hst
  refine ⟨_, sent_wf hp hv.2.1 hv.2.2 c1 (reason_text hst k5) ?_ (by rw [hbytes]; exact hsz), hbytes, c2, toR_shown _, sent_chunked hp (fun hc => ((sp.chunked.1 hc)).2.2), ?_⟩
  · intro k hk
    rw [← hn] at hk
    split at hk
    · cases hk
    · rw [Option.some.injEq] at hk; omega
  · rw [sent_announced]
    · cases n with
      | none => rfl
      | some k =>
        show some (num (digits 10 k)) = some k
        rw [num_eq (readNat_digits 10 (by decide) (by decide) k)]
    · intro l hl
      cases n with
      | none => cases hl
      | some k => simp at hl; rw [← hl]; exact digits_ne_nil _ _

theorem plain_wire {r : ReqView} {h : RespHead} : ∀ (b : List Ev), (∀ e ∈ b, (∃ bs, e = .recv bs) ∨ (∃ bs, e = .body bs ∧ h.chunked = false) ∨ (∃ bs, e = .chunk bs ∧ h.chunked = true) ∨
    (e = .lastChunk ∧ h.chunked = true)) → h.chunked = false → wireOf b = contentOf b
  | [], _, _ => rfl
  | e :: b, he, hc => by
    have ih := plain_wire (r := r) b (fun x hx => he x (by simp [hx])) hc
    have h1 : wireOf (e :: b) = e.wire ++ wireOf b := by simp [wireOf]
    have h2 : contentOf (e :: b) = Ev.content e ++ contentOf b := by simp [contentOf]
    rw [h1, h2, ih]
    rcases he e (by simp) with ⟨bs, rfl⟩ | ⟨bs, rfl, -⟩ | ⟨bs, rfl, k⟩ | ⟨rfl, k⟩
    · rfl
    · rfl
    · rw [hc] at k; cases k
    · rw [hc] at k; cases k

/-- What the client reports. -/
def reported (status : Nat) (sent : Headers) (content : Bytes) : List Hook := [.begin, .headersComplete status sent, .complete status sent content]

/-- What a completed response of known length is in the grammar of responses. -/
theorem known_response (s : Conf) (hr : Reach Proper s) (a b d : List Ev) (h : RespHead) (r : ReqView)
    (e : s.c.log = a ++ .head h :: b ++ .completed :: d) (hb : NoHead b) (hreq : (readys a).getLast? = some r)
    (hm : r.method ≠ b!"HEAD") (hl : 0 ≤ h.len ∧ h.len < 2147483648) (hst : h.status ∈ rfcCodes) {maj min : Bytes} (hv : VersionOf r maj min)
    (hp : ∀ x ∈ h.headers, PlainHeader x) (hsz : h.bytes.length ≤ 80 * 1024 - 2) :
    ∃ M : Response, M.Wf ∧ M.render = wireOf (.head h :: b) ∧ num M.head.status = h.status.toNat ∧ M.content = contentOf b ∧
      M.head.shown = sentHeaders r h.headers (some (digits 10 h.len.toNat)) h.keepAlive h.chunked := by
  have hexact := C18_complete_exact s hr a b d h r e hb hreq hm hl.1
  have e' := e
  rw [List.append_assoc, List.cons_append] at e'
  obtain ⟨-, ph, hruns⟩ := reach_log hr
  obtain ⟨r', h1, ⟨lenIn, st, hs, hl', hbh⟩, h3, h4⟩ := head_split hruns e'
  obtain ⟨k1, k2, m, k3, k4⟩ := response_completed h4 hb
  obtain ⟨w, -⟩ := writing_path r' h b k3 k1
  have hch : h.chunked = false := by
    cases hc : h.chunked with
    | false => rfl
    | true => have := (buildHead_facts hbh).2 hc; omega
  obtain ⟨H, g1, g2, g3, g4, g5, g6⟩ := head_grammar s hr a _ h e' r hreq hst ⟨by omega, hl.2⟩ hv hp hsz
  have hn1 : h.len ≠ -1 := by omega
  rw [if_neg hn1] at g4 g6
  have hwire := plain_wire (r := r) (h := h) b w.only hch
  refine ⟨⟨H, contentOf b, contentOf b⟩, ⟨g1, .sized _ (fun hc => by rw [g5, hch] at hc; cases hc) (by rw [g6, ← hexact]; rfl)⟩, ?_, g3, rfl, g4⟩
  show H.render ++ contentOf b = _
  rw [g2, ← hwire]
  simp [wireOf, Ev.wire]

/-- What a completed response in chunks is in the grammar of responses. -/
theorem chunked_response (s : Conf) (hr : Reach Proper s) (a b d : List Ev) (h : RespHead) (r : ReqView)
    (e : s.c.log = a ++ .head h :: b ++ .completed :: d) (hb : NoHead b) (hreq : (readys a).getLast? = some r)
    (hm : r.method ≠ b!"HEAD") (hc : h.chunked = true) (hcl : ∀ bs, .chunk bs ∈ b → bs.length < 2147483648) (hst : h.status ∈ rfcCodes) {maj min : Bytes} (hv : VersionOf r maj min)
    (hp : ∀ x ∈ h.headers, PlainHeader x) (hsz : h.bytes.length ≤ 80 * 1024 - 2) :
    ∃ M : Response, M.Wf ∧ M.render = wireOf (.head h :: b) ∧ num M.head.status = h.status.toNat ∧ M.content = contentOf b ∧
      M.head.shown = sentHeaders r h.headers none h.keepAlive true := by
  have hdec := C19_decodes s hr a b d h r e hb hreq hm hc
  have e' := e
  rw [List.append_assoc, List.cons_append] at e'
  obtain ⟨-, ph, hruns⟩ := reach_log hr
  obtain ⟨r', h1, ⟨lenIn, st, hs, hl', hbh⟩, h3, h4⟩ := head_split hruns e'
  obtain ⟨k1, k2, m, k3, k4⟩ := response_completed h4 hb
  obtain ⟨w, -⟩ := writing_path r' h b k3 k1
  have hlen := (buildHead_facts hbh).2 hc
  obtain ⟨H, g1, g2, g3, g4, g5, g6⟩ := head_grammar s hr a _ h e' r hreq hst (by omega) hv hp hsz
  rw [if_pos hlen] at g4 g6
  have hbody : ChunkedBody (wireOf b) (contentOf b) := by
    refine chunked_body b _ (fun x hx => ?_) hdec
    rcases w.only x hx with ⟨bs, rfl⟩ | ⟨bs, rfl, k⟩ | ⟨bs, rfl, k⟩ | ⟨rfl, k⟩
    · exact Or.inl ⟨bs, rfl⟩
    · rw [hc] at k; cases k
    · exact Or.inr (Or.inl ⟨bs, rfl, hcl bs hx⟩)
    · exact Or.inr (Or.inr rfl)
  refine ⟨⟨H, wireOf b, contentOf b⟩, ⟨g1, .chunked _ _ (g5.2 hc) hbody⟩, ?_, g3, rfl, by rw [← hc]; exact g4⟩
  show H.render ++ wireOf b = _
  rw [g2]
  simp [wireOf, Ev.wire]

theorem response_reported {M : Response} (hM : M.Wf) {p : RespParser} (hpr : Ready p) {segs : List Bytes} (hren : M.render = segs.flatten) :
    (deliverAll p segs).d.hooks = p.d.hooks ++ reported (num M.head.status) M.head.shown M.content ∧ (deliverAll p segs).hasError = false := by
  have ha := deliverAll_flatten segs p (ready_used_safe hpr).1 (ready_used_safe hpr).2
  rw [← hren] at ha
  obtain ⟨q1, q2, -⟩ := C55_response hpr hM
  exact ⟨ha.hooks.symm.trans q1, by unfold RespParser.hasError at q2 ⊢; rw [← ha.parser]; exact q2⟩

/-- **C41**, known length.  The bytes the server writes for a completed response to a request other than HEAD, in any division, are
reported by the client's parser as that response, with nothing left over. -/
theorem C41_known_length (s : Conf) (hr : Reach Proper s) (a b d : List Ev) (h : RespHead) (r : ReqView)
    (e : s.c.log = a ++ .head h :: b ++ .completed :: d) (hb : NoHead b) (hreq : (readys a).getLast? = some r)
    (hm : r.method ≠ b!"HEAD") (hl : 0 ≤ h.len ∧ h.len < 2147483648) (hst : h.status ∈ rfcCodes) {maj min : Bytes} (hv : VersionOf r maj min)
    (hp : ∀ x ∈ h.headers, PlainHeader x) (hsz : h.bytes.length ≤ 80 * 1024 - 2) {p : RespParser} (hpr : Ready p) {segs : List Bytes}
    (hseg : segs.flatten = wireOf (.head h :: b)) :
    (deliverAll p segs).d.hooks = p.d.hooks ++ reported h.status.toNat (sentHeaders r h.headers (some (digits 10 h.len.toNat)) h.keepAlive h.chunked) (contentOf b) ∧
    (deliverAll p segs).hasError = false := by
  obtain ⟨M, h1, h2, h3, h4, h5⟩ := known_response s hr a b d h r e hb hreq hm hl hst hv hp hsz
  rw [← h3, ← h4, ← h5]
  exact response_reported h1 hpr (h2.trans hseg.symm)

/-- **C41**, chunked encoding. -/
theorem C41_chunked (s : Conf) (hr : Reach Proper s) (a b d : List Ev) (h : RespHead) (r : ReqView)
    (e : s.c.log = a ++ .head h :: b ++ .completed :: d) (hb : NoHead b) (hreq : (readys a).getLast? = some r)
    (hm : r.method ≠ b!"HEAD") (hc : h.chunked = true) (hcl : ∀ bs, .chunk bs ∈ b → bs.length < 2147483648) (hst : h.status ∈ rfcCodes) {maj min : Bytes} (hv : VersionOf r maj min)
    (hp : ∀ x ∈ h.headers, PlainHeader x) (hsz : h.bytes.length ≤ 80 * 1024 - 2) {p : RespParser} (hpr : Ready p) {segs : List Bytes}
    (hseg : segs.flatten = wireOf (.head h :: b)) :
    (deliverAll p segs).d.hooks = p.d.hooks ++ reported h.status.toNat (sentHeaders r h.headers none h.keepAlive true) (contentOf b) ∧
    (deliverAll p segs).hasError = false := by
  obtain ⟨M, h1, h2, h3, h4, h5⟩ := chunked_response s hr a b d h r e hb hreq hm hc hcl hst hv hp hsz
  rw [← h3, ← h4, ← h5]
  exact response_reported h1 hpr (h2.trans hseg.symm)

/-- **C41**, unknown length: the client's parser reports the response when the end of the input is injected (`NoContent`: at once). -/
theorem C41_until_closed (s : Conf) (hr : Reach Proper s) (a b d : List Ev) (h : RespHead) (r : ReqView)
    (e : s.c.log = a ++ .head h :: b ++ .completed :: d) (hb : NoHead b) (hreq : (readys a).getLast? = some r)
    (hc : h.chunked = false) (hl : h.len = -1) (hst : h.status ∈ rfcCodes) (hno : ¬ NoContent h.status.toNat) {maj min : Bytes} (hv : VersionOf r maj min)
    (hp : ∀ x ∈ h.headers, PlainHeader x) (hsz : h.bytes.length ≤ 80 * 1024 - 2) {p : RespParser} (hpr : Ready p) {segs : List Bytes}
    (hseg : segs.flatten = wireOf (.head h :: b)) :
    (deliverAll p segs).injectEof.d.hooks = p.d.hooks ++ reported h.status.toNat (sentHeaders r h.headers none h.keepAlive false) (contentOf b) ∧
    (deliverAll p segs).injectEof.hasError = false ∧ h.keepAlive = false := by
  have e' := e
  rw [List.append_assoc, List.cons_append] at e'
  obtain ⟨-, ph, hruns⟩ := reach_log hr
  obtain ⟨r', h1, ⟨lenIn, st, hs, hl', hbh⟩, h3, h4⟩ := head_split hruns e'
  obtain ⟨k1, k2, m, k3, k4⟩ := response_completed h4 hb
  obtain ⟨w, -⟩ := writing_path r' h b k3 k1
  obtain ⟨H, g1, g2, g3, g4, g5, g6⟩ := head_grammar s hr a _ h e' r hreq hst (by omega) hv hp hsz
  rw [if_pos hl] at g4 g6
  have hwire := plain_wire (r := r) (h := h) b w.only hc
  have hE : EndsWithConnection H := ⟨fun k => by rw [g5, hc] at k; exact Bool.noConfusion k, g6, by rw [g3]; exact hno⟩
  have hren : segs.flatten = H.render ++ contentOf b := by
    rw [g2, hseg, ← hwire]
    simp [wireOf, Ev.wire]
  obtain ⟨-, -, -, q4, q5⟩ := C55_until_eof hpr g1 hE (contentOf b) hren
  refine ⟨q4.trans ?_, q5, ?_⟩
  · show p.d.hooks ++ [.begin, .headersComplete (num H.status) H.shown, .complete (num H.status) H.shown (contentOf b)] = _
    rw [g3, g4, hc]
    rfl
  · obtain ⟨_, -, sp⟩ := head_in_log s hr a _ h e' r hreq
    cases hk : h.keepAlive with
    | false => rfl
    | true =>
      have := (sp.keepAlive.1 hk).2.1
      rcases this with h | h
      · omega
      · rw [hc] at h; cases h

/-! ### The hypotheses are met -/

theorem demo_plain : PlainHeader ⟨b!"X-Y", b!"z"⟩ :=
  ⟨⟨by simp, by decide +kernel⟩, ⟨text_dec _ (by decide +kernel), by decide, by decide⟩, by decide, fun h => absurd h (by decide)⟩

example : ∃ (s : Conf) (a b d : List Ev) (h : RespHead) (r : ReqView), Reach Proper s ∧ s.c.log = a ++ .head h :: b ++ .completed :: d ∧ NoHead b ∧
    (readys a).getLast? = some r ∧ r.method ≠ b!"HEAD" ∧ h.len = 5 ∧ h.status ∈ rfcCodes ∧ VersionOf r b!"1" b!"1" ∧ (∀ x ∈ h.headers, PlainHeader x) ∧
    h.bytes.length ≤ 80 * 1024 - 2 ∧ contentOf b = b!"hello" ∧ wireOf (.head h :: b) = b!"HTTP/1.1 200 OK\r\nX-Y: z\r\nContent-Length: 5\r\nContent-Type: text/plain\r\n\r\nhello" := by
  obtain ⟨t, h1, h2⟩ := exists_of_endsIn (allowed := Proper) (ls := toCompletion b!"HTTP/1.1")
    (p := fun s => match s.c.log with
      | [_, _, .ready r, .head h, .body b, .completed] => r.method == b!"GET" && r.version == b!"HTTP/1.1" && h.len == 5 && h.status == 200 && h.headers == [⟨b!"X-Y", b!"z"⟩] &&
          b == b!"hello" && h.bytes == b!"HTTP/1.1 200 OK\r\nX-Y: z\r\nContent-Length: 5\r\nContent-Type: text/plain\r\n\r\n"
      | _ => false) (by decide +kernel)
  split at h2
  · rename_i x y r h b e
    simp only [Bool.and_eq_true, beq_iff_eq] at h2
    obtain ⟨⟨⟨⟨⟨⟨k1, k2⟩, k3⟩, k4⟩, k5⟩, k6⟩, k7⟩ := h2
    refine ⟨t, [x, y, .ready r], [.body b], [], h, r, h1, by rw [e]; rfl, ?_, ?_, by rw [k1]; decide, k3, by rw [k4]; decide,
      ⟨by rw [k2]; rfl, ⟨1, by decide +kernel, by decide⟩, ⟨1, by decide +kernel, by decide⟩⟩, ?_, by rw [k7]; decide +kernel, ?_, ?_⟩
    · intro e he; simp at he; subst he; simp
    · cases x <;> cases y <;> rfl
    · rw [k5]; intro x hx; simp only [List.mem_singleton] at hx; subst hx; exact demo_plain
    · rw [k6]; rfl
    · rw [k6]; show h.bytes ++ (b!"hello" ++ []) = _; rw [k7]; rfl
  · cases h2

/-- The condition on `Transfer-Encoding` is needed: with `"chunked "` the server sends `Content-Length` and plain content, and the client's
parser expects chunks. -/
theorem C41_encoding_needed : ∃ (s : Conf) (h : RespHead), Reach Proper s ∧ Ev.head h ∈ s.c.log ∧ h.len = 5 ∧ Ev.body b!"hello" ∈ s.c.log ∧
    (deliver {} (h.bytes ++ b!"hello")).hasError = true := by
  obtain ⟨t, h1, h2⟩ := exists_of_endsIn (allowed := Proper) (ls := [.init, .recv b!"GET /a HTTP/1.1\r\n\r\n", .call .processInput] ++ taus 3 ++
      [.call (.writeResponse 200 [⟨b!"Transfer-Encoding", b!"chunked "⟩] b!"hello")] ++ taus 7)
    (p := fun s => match s.c.log with
      | [_, _, _, .head h, .body b, .completed] => h.len == 5 && b == b!"hello" && (deliver {} (h.bytes ++ b!"hello")).hasError
      | _ => false) (by decide +kernel)
  split at h2
  · rename_i x y z h b e
    simp only [Bool.and_eq_true, beq_iff_eq] at h2
    obtain ⟨⟨k1, k2⟩, k3⟩ := h2
    exact ⟨t, h, h1, by rw [e]; simp, k1, by rw [e, k2]; simp, k3⟩
  · cases h2

end Pillow.Props
