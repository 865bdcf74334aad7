import Verif.Spec.Download
import Verif.Props.Exchange
import Verif.Props.File
import Verif.Props.Mime
/-!
# C78: from the client's request through a handler of the server to the client's report
-/
namespace Pillow.Props
open Pillow Pillow.Spec

/-! ## The request -/

theorem asked_last {env : ClientEnv} {fuel : Nat} {c : Client} {s : Conf} (h : AskedServer env fuel c s) : (readys s.c.log).getLast? = some s.c.req := by
  obtain ⟨ph, hruns, hne, hph⟩ := reach_phase h.reach h.control h.fault
  rcases hph with ⟨hset, -⟩ | ⟨-, e | ⟨e, -⟩⟩
  · obtain ⟨rfl, -⟩ := (settled_sendH h.handing).1 hset
    exact req_last hruns _ rfl
  · rw [h.handing] at e; cases e
  · rw [h.handing] at e; cases e

/-- **C78**: the request the handler is shown is that of the client. -/
theorem C78_shown (env : ClientEnv) (fuel : Nat) (c : Client) (s : Conf) (h : AskedServer env fuel c s) : Delivered c.request s.c.req := by
  obtain ⟨onH, onC, onF, onK, is, hc⟩ := wellServed_isRun h.served
  have hwire := C58_written env fuel onH onC onF onK is
  rw [← hc] at hwire
  obtain ⟨earlier, data, hsaid⟩ := h.last
  have hlen : (readys (epoch s.c.log)).length = earlier.length + 1 := by rw [h.count, hsaid]; simp
  have hlast : (readys (epoch s.c.log)).getLast? = some s.c.req := by
    have h1 := asked_last h
    obtain ⟨before, hbef⟩ := epoch_suffix s.c.log
    have e : readys s.c.log = readys before ++ readys (epoch s.c.log) := by
      conv => lhs; rw [hbef]
      simp [readys]
    rw [e, List.getLast?_append] at h1
    cases hg : (readys (epoch s.c.log)).getLast? with
    | none => rw [List.getLast?_eq_none_iff] at hg; rw [hg] at hlen; simp at hlen
    | some v => rw [hg] at h1; simpa using h1
  rw [List.getLast?_eq_getElem?, hlen] at hlast
  obtain ⟨q, hq, hdel⟩ := C58_requests (said c.log) (fun q hq => ⟨hwire q hq, h.askable q hq⟩) s h.reach h.received earlier.length s.c.req (by simpa using hlast)
  rw [hsaid] at hq
  have hqe : q = (c.request, data) := by simpa using hq.symm
  subst hqe
  exact hdel

theorem esc_no_question {t : Bytes} (h : EscText PathChar t) : 63 ∉ t := by
  induction h with
  | nil => simp
  | plain b t hb _ ih => rw [List.mem_cons, not_or]; exact ⟨fun e => hb.2 e.symm, ih⟩
  | esc x y t hx hy _ ih =>
    have : ∀ x, HexDigit x → (63 : Byte) ≠ x := by rintro x hx rfl; revert hx; unfold HexDigit; decide
    simp only [List.mem_cons, not_or]
    exact ⟨by decide, this x hx, this y hy, ih⟩
  | uesc x y t hx hy _ ih =>
    have : ∀ x, HexDigit x → (63 : Byte) ≠ x := by rintro x hx rfl; revert hx; unfold HexDigit; decide
    simp only [List.mem_cons, not_or]
    exact ⟨by decide, by decide, this x hx, this y hy, ih⟩

theorem split_question : ∀ {a b x y : Bytes}, 63 ∉ a → 63 ∉ b → a ++ 63 :: x = b ++ 63 :: y → a = b
  | [], [], _, _, _, _, _ => rfl
  | [], z :: b, _, _, _, hb, e => by simp only [List.nil_append, List.cons_append, List.cons.injEq] at e; exact absurd (by rw [e.1]; simp) hb
  | z :: a, [], _, _, ha, _, e => by simp only [List.nil_append, List.cons_append, List.cons.injEq] at e; exact absurd (by rw [e.1]; simp) ha
  | z :: a, w :: b, _, _, ha, hb, e => by
    simp only [List.cons_append, List.cons.injEq] at e
    rw [e.1, split_question (by simp at ha; exact ha.2) (by simp at hb; exact hb.2) e.2]

/-- … its path is that of the url. -/
theorem delivered_path {r : ClientRequest} {v : ReqView} (h : Delivered r v) (hp : 63 ∉ r.url.path) : v.path = r.url.path := by
  obtain ⟨host, -, -, -, -, -, -, ho, -⟩ := h
  obtain ⟨⟨t, ht, hesc⟩, ho⟩ := ho
  have hv : 63 ∉ v.path := by rw [ht, List.mem_cons, not_or]; exact ⟨by decide, esc_no_question hesc⟩
  simp only [outgoing] at ho
  by_cases hq : r.url.query = []
  · rw [if_pos hq, List.append_nil] at ho
    rcases ho with ⟨-, e⟩ | ⟨-, -, e⟩
    · exact e.symm
    · exact absurd (by rw [e]; simp) hp
  · rw [if_neg hq] at ho
    rcases ho with ⟨-, e⟩ | ⟨-, -, e⟩
    · exact absurd (by rw [← e]; simp) hv
    · exact (split_question hp hv (by simpa using e)).symm

theorem delivered_match {r : ClientRequest} {v : ReqView} (h : Delivered r v) : getFieldValue v.headers b!"If-None-Match" = getFieldValue r.headers b!"If-None-Match" := by
  obtain ⟨host, -, -, -, -, -, -, -, len, -, e⟩ := h
  rw [e]
  have happ : ∀ (a b : Headers), (∀ x ∈ b, asciiEqualsCI x.name b!"If-None-Match" = false) → getFieldValue (a ++ b) b!"If-None-Match" = getFieldValue a b!"If-None-Match" := by
    intro a b hb
    induction a with
    | nil =>
      induction b with
      | nil => rfl
      | cons x b ih =>
        have e : getFieldValue (x :: b) b!"If-None-Match" = getFieldValue b b!"If-None-Match" := by
          have := hb x (by simp)
          simp [getFieldValue, this]
        rw [List.nil_append, e]
        exact ih (fun y hy => hb y (by simp [hy]))
    | cons x a ih => rw [List.cons_append, getFieldValue, getFieldValue, ih]
  rw [happ]
  · simp only [outgoing]
    have : asciiEqualsCI b!"Host" b!"If-None-Match" = false := by decide +kernel
    simp [getFieldValue, this]
  · intro x hx
    split at hx
    · cases hx
    · simp only [List.mem_singleton] at hx; subst hx
      show asciiEqualsCI b!"Content-Length" b!"If-None-Match" = false
      decide +kernel

theorem delivered_version {r : ClientRequest} {v : ReqView} (h : Delivered r v) : v.version = b!"HTTP/1.1" := by
  obtain ⟨host, -, hrec⟩ := h
  exact hrec.2.2.1

theorem asked_head {env : ClientEnv} {fuel : Nat} {c : Client} {s : Conf} (h : AskedServer env fuel c s) : s.c.req.method = b!"HEAD" ↔ IsHead c.request := by
  obtain ⟨earlier, data, hsaid⟩ := h.last
  exact delivered_head (C78_shown env fuel c s h) (h.askable (c.request, data) (by rw [hsaid]; simp))

/-! ## The size of a head -/

theorem digits10_len (k n : Nat) (h : n < 10 ^ (k + 1)) : (digits 10 n).length ≤ k + 1 := by
  induction k generalizing n with
  | zero => rw [digits_lt (by simpa using h)]; simp
  | succ k ih =>
    by_cases hn : n < 10
    · rw [digits_lt hn]; simp
    · rw [digits_ge (by decide) (by omega), List.length_append]
      have := ih (n / 10) (by rw [Nat.div_lt_iff_lt_mul (by decide), ← Nat.pow_succ]; exact h)
      simp; omega

theorem headerBytes_filter (hs : Headers) (p : Header → Bool) : headerBytes (hs.filter p) ≤ headerBytes hs := by
  induction hs with
  | nil => simp [headerBytes]
  | cons x hs ih =>
    rw [List.filter_cons]
    simp only [headerBytes, List.map_cons, List.sum_cons] at ih ⊢
    split
    · simp only [List.map_cons, List.sum_cons]; omega
    · omega

theorem headerBytes_lines (hs : Headers) : ((hs.map lineOf).flatten).length = headerBytes hs := by
  induction hs with
  | nil => rfl
  | cons x hs ih =>
    simp only [headerBytes, List.map_cons, List.sum_cons, List.flatten_cons, List.length_append] at ih ⊢
    rw [ih]
    simp [lineOf]; omega

theorem lineOf_bound {hs : Headers} {x : Header} (h : x ∈ hs) : (lineOf x).length ≤ headerBytes hs := by
  rw [← headerBytes_lines]
  induction hs with
  | nil => cases h
  | cons y hs ih =>
    rw [List.map_cons, List.flatten_cons, List.length_append]
    rcases List.mem_cons.1 h with rfl | h
    · omega
    · have := ih h; omega

theorem head_size {r : ReqView} {lenIn : Int} {h : RespHead} (sp : HeadSpec r lenIn h.status h.headers h) (hst : h.status ∈ rfcCodes) (hv : r.version = b!"HTTP/1.1")
    (hl : -1 ≤ h.len ∧ h.len < 2147483648) : h.bytes.length ≤ 200 + 3 * headerBytes h.headers := by
  obtain ⟨cl, h1, h2⟩ := sp.bytes
  rw [lengthLine_isSome _ ⟨by omega, hl.2⟩, Option.some.injEq] at h1
  have k1 : (statusLine r h.status).length ≤ 60 := by
    have : ∀ st ∈ rfcCodes, (statusText st).length ≤ 40 := by decide +kernel
    have := this _ hst
    simp only [statusLine, hv, List.length_append, List.length_cons, List.length_nil]; omega
  have k2 : (otherLines h.headers).length ≤ headerBytes h.headers := by
    unfold otherLines; rw [headerBytes_lines]; exact headerBytes_filter _ _
  have k3 : cl.length ≤ 30 := by
    rw [← h1]
    split
    · simp
    · have : (renderInt 10 h.len).length ≤ 10 := by
        unfold renderInt
        rw [if_neg (by omega)]
        exact digits10_len 9 _ (by omega)
      simp only [List.length_append, List.length_cons, List.length_nil]; omega
  have k4 : (typeHeader h.headers h.len).length ≤ 30 + headerBytes h.headers := by
    unfold typeHeader
    split
    · rename_i t ht; have := lineOf_bound (lastHeader_mem ht).1; omega
    · split <;> simp <;> omega
  have k5 : (connectionHeader r h.keepAlive).length ≤ 30 := by
    unfold connectionHeader
    rw [if_pos hv]
    split <;> simp
  have k6 : (encodingHeader h.headers h.chunked).length ≤ headerBytes h.headers := by
    unfold encodingHeader
    split
    · rename_i t ht
      split
      · simp
      · exact lineOf_bound (lastHeader_mem ht).1
    · simp
  rw [h2]
  simp only [List.length_append, List.length_cons, List.length_nil]
  omega

/-! ## The answer -/

/-- What is common to the answers below: a completed response to the request the handler was shown. -/
theorem asked_answer {env : ClientEnv} {fuel : Nat} {c : Client} {s : Conf} (h : AskedServer env fuel c s) {t : Conf} (ht : Reach Proper t) {hd : RespHead} {b d : List Ev}
    (e : t.c.log = s.c.log ++ .head hd :: b ++ .completed :: d) (hb : NoHead b) (hl : 0 ≤ hd.len ∧ hd.len < 2147483648) (hst : hd.status ∈ rfcCodes) (h100 : hd.status ≠ 100)
    (hp : ∀ x ∈ hd.headers, PlainHeader x) (hsz : headerBytes hd.headers ≤ 24 * 1024) (hz : ¬ Gzipped hd.headers ∨ env.inflate = none) (inputs : List CInput)
    (hr : Reaches (wireOf (.head hd :: b)) inputs) :
    (∃ shown, HeadersOf s.c.req hd shown ∧ ReportsAs c.log (c.run env fuel inputs).log hd.status.toNat shown (contentOf b)) ∧ WellServed env fuel (c.run env fuel inputs) := by
  obtain ⟨segs, ha, hseg⟩ := hr
  have hv := delivered_version (C78_shown env fuel c s h)
  have hlast := asked_last h
  obtain ⟨lenIn, -, sp⟩ := head_in_log t ht s.c.log (b ++ .completed :: d) hd (by rw [e]; simp) s.c.req hlast
  have hsize := head_size sp hst hv ⟨by omega, hl.2⟩
  exact C58_answer t ht s.c.log b d hd s.c.req e hb hlast (.inl hl) hst h100 (maj := b!"1") (min := b!"1") ⟨by rw [hv]; rfl, ⟨1, by decide +kernel, by decide⟩, ⟨1, by decide +kernel, by decide⟩⟩ hp
    (by omega) env fuel c h.served h.awaiting (asked_head h) segs inputs ha hseg hz

theorem reach_run {s t : Conf} {ls : List Label} (hr : Reach Proper s) (h : s.run ls = some t) (hl : ∀ l ∈ ls, l ≠ .init) : Reach Proper t := by
  induction ls generalizing s with
  | nil => cases h; exact hr
  | cons l ls ih =>
    simp only [Conf.run] at h
    cases hs : s.step l with
    | none => rw [hs] at h; cases h
    | some s' =>
      rw [hs] at h
      exact ih (.step _ _ _ hr (fun e => absurd e (hl l (by simp))) hs) h (fun l hl' => hl l (by simp [hl']))

/-- **C78**: a handler that answers with `writeResponse()`: its response, when it reaches the client (divided and timed in any way), is what the client reports. -/
theorem C78_answer (env : ClientEnv) (fuel : Nat) (c : Client) (s : Conf) (h : AskedServer env fuel c s) (status : Int) (hs : Headers) (ct : Bytes) (hst : status ∈ rfcCodes) (h100 : status ≠ 100)
    (hp : ∀ x ∈ hs, PlainHeader x) (hcl : ∀ x ∈ hs, ¬ SameCI x.name b!"content-length") (hsz : headerBytes hs ≤ 24 * 1024) (hl : ct.length < 2147483648) (hz : ¬ Gzipped hs ∨ env.inflate = none) :
    ∃ n t hd b, s.run (.call (.writeResponse status hs ct) :: taus n) = some t ∧ t.inEnv = true ∧ t.c.log = s.c.log ++ .head hd :: b ++ [.completed] ∧ hd.headers = hs ∧
      ∀ inputs, Reaches (wireOf (.head hd :: b)) inputs →
        (∃ shown, HeadersOf s.c.req hd shown ∧ ReportsAs c.log (c.run env fuel inputs).log status.toNat shown (due c.request ct)) ∧ WellServed env fuel (c.run env fuel inputs) := by
  have hcl' : lastHeader hs b!"content-length" = none := by
    unfold lastHeader
    rw [List.getLast?_eq_none_iff, List.filter_eq_nil_iff]
    intro x hx; simpa using hcl x hx
  obtain ⟨n, t, hd, h1, h2, h3, h4, h5⟩ := C18_writeResponse s h.reach h.control h.fault h.handing status hs ct hcl' (by omega)
  have hm := asked_head h
  generalize hb : (if ct = [] ∨ s.c.req.method = b!"HEAD" then [] else [.body ct] : List Ev) = b at h5
  have hb1 : contentOf b = due c.request ct := by
    rw [← hb]
    unfold due
    by_cases hc : ct = []
    · rw [if_pos (.inl hc), hc]; simp [contentOf]
    · by_cases hi : IsHead c.request
      · rw [if_pos (.inr (hm.2 hi)), if_pos hi]; rfl
      · rw [if_neg (by simp [hc, hm, hi]), if_neg hi]; simp [contentOf, Ev.content]
  have hb2 : NoHead b := by
    rw [← hb]
    split
    · intro e he; cases he
    · intro e he x hx; simp only [List.mem_singleton] at he; subst he; cases hx
  have hrt : Reach Proper t := reach_run h.reach h1 (by
    intro l hl'
    rcases List.mem_cons.1 hl' with rfl | hl'
    · simp
    · unfold taus at hl'; rw [List.eq_of_mem_replicate hl']; simp)
  refine ⟨n, t, hd, b, h1, h2, by rw [h5]; simp, h4.hdrs, fun inputs hr => ?_⟩
  have := asked_answer h hrt (hd := hd) (b := b) (d := []) (by rw [h5]; simp) hb2 (by omega) (by rw [h4.code]; exact hst) (by rw [h4.code]; exact h100) (by rw [h4.hdrs]; exact hp)
    (by rw [h4.hdrs]; exact hsz) (by rw [h4.hdrs]; exact hz) inputs hr
  rw [h4.code, hb1] at this
  exact this

/-! ## Files -/

theorem mime_plain (path : Bytes) : PlainHeader ⟨b!"Content-Type", getMimeTypeForFilename path⟩ ∧ (getMimeTypeForFilename path).length ≤ 40 := by
  have key : ∀ t ∈ b!"application/octet-stream" :: mediaTypes.map (·.2), (t.all (fun b => b != 13 && b != 10) = true ∧ t.head? ≠ some 32 ∧ t.head? ≠ some 9) ∧ t.length ≤ 40 := by decide +kernel
  have hm : getMimeTypeForFilename path ∈ b!"application/octet-stream" :: mediaTypes.map (·.2) := by
    rcases (C74_type path _).2 rfl with ⟨ext, h1, -⟩ | ⟨h1, -⟩
    · exact List.mem_cons_of_mem _ (List.mem_map.2 ⟨_, h1, rfl⟩)
    · rw [h1]; simp
  obtain ⟨⟨k1, k2⟩, k3⟩ := key _ hm
  exact ⟨⟨⟨by simp, by show ∀ b ∈ b!"Content-Type", TokenChar b; decide +kernel⟩, ⟨text_dec _ k1, k2⟩, by show ¬ SameCI b!"Content-Type" b!"upgrade"; decide +kernel,
    fun h => absurd (show SameCI b!"Content-Type" b!"transfer-encoding" from h) (by decide +kernel)⟩, k3⟩

theorem etag_plain {x : Bytes} (h : Hex x) : PlainHeader ⟨b!"ETag", x⟩ := by
  refine ⟨⟨by simp, by show ∀ b ∈ b!"ETag", TokenChar b; decide +kernel⟩, ⟨?_, ?_, ?_⟩, by show ¬ SameCI b!"ETag" b!"upgrade"; decide +kernel,
    fun h => absurd (show SameCI b!"ETag" b!"transfer-encoding" from h) (by decide +kernel)⟩
  · intro b hb
    rcases h b hb with h | h
    · exact ⟨by rintro rfl; exact absurd h.1 (by decide), by rintro rfl; exact absurd h.1 (by decide)⟩
    · exact ⟨by rintro rfl; exact absurd h.1 (by decide), by rintro rfl; exact absurd h.1 (by decide)⟩
  · cases x with
    | nil => simp
    | cons b x =>
      simp only [List.head?_cons, ne_eq, Option.some.injEq]
      rintro rfl
      rcases h 32 (by simp) with h | h <;> exact absurd h.1 (by decide)
  · cases x with
    | nil => simp
    | cons b x =>
      simp only [List.head?_cons, ne_eq, Option.some.injEq]
      rintro rfl
      rcases h 9 (by simp) with h | h <;> exact absurd h.1 (by decide)

theorem readable_of {fs : FileSystem} {dec : Bytes → Bytes} {pub content : Bytes} {r : ClientRequest} {v : ReqView} (h : ServedFile fs pub (dec r.url.path) content) (hp : v.path = r.url.path) :
    Readable fs dec pub v content := by
  refine ⟨h.dir, ?_, ?_, ?_, ?_⟩ <;> rw [hp]
  · exact h.present
  · exact h.isFile
  · exact h.inside
  · exact h.content

theorem shown_file (v : ReqView) (t e : Bytes) (len : Option Bytes) (keep chunked : Bool) :
    sentHeaders v [⟨b!"Content-Type", t⟩, ⟨b!"ETag", e⟩] len keep chunked = ⟨b!"ETag", e⟩ :: (lengthPart len ++ ⟨b!"Content-Type", t⟩ :: connectionPart v keep) ∧
    firstValue (sentHeaders v [⟨b!"Content-Type", t⟩, ⟨b!"ETag", e⟩] len keep chunked) b!"content-type" = t ∧
    firstValue (sentHeaders v [⟨b!"Content-Type", t⟩, ⟨b!"ETag", e⟩] len keep chunked) b!"etag" = e := by
  have k1 : decide (Special ⟨b!"Content-Type", t⟩) = true := decide_eq_true (Or.inr (Or.inl (show SameCI b!"Content-Type" b!"content-type" by decide +kernel)))
  have k2 : decide (Special ⟨b!"ETag", e⟩) = false := decide_eq_false (show ¬ (SameCI b!"ETag" b!"content-length" ∨ SameCI b!"ETag" b!"content-type" ∨ SameCI b!"ETag" b!"connection" ∨ SameCI b!"ETag" b!"transfer-encoding") by decide +kernel)
  have a1 : decide (SameCI b!"Content-Type" b!"content-type") = true := by decide +kernel
  have a2 : decide (SameCI b!"ETag" b!"content-type") = false := by decide +kernel
  have a3 : decide (SameCI b!"Content-Type" b!"transfer-encoding") = false := by decide +kernel
  have a4 : decide (SameCI b!"ETag" b!"transfer-encoding") = false := by decide +kernel
  have a5 : decide (SameCI b!"ETag" b!"etag") = true := by decide +kernel
  have a6 : decide (SameCI b!"Content-Length" b!"content-type") = false := by decide +kernel
  have e1 : sentHeaders v [⟨b!"Content-Type", t⟩, ⟨b!"ETag", e⟩] len keep chunked = ⟨b!"ETag", e⟩ :: (lengthPart len ++ ⟨b!"Content-Type", t⟩ :: connectionPart v keep) := by
    simp [sentHeaders, typePart, encodingPart, lastHeader, List.filter_cons, k1, k2, a1, a2, a3, a4]
  refine ⟨e1, ?_, ?_⟩
  · rw [e1]
    cases len <;> simp [firstValue, lengthPart, List.find?_cons, a1, a2, a6]
  · rw [e1]
    simp [firstValue, List.find?_cons, a5]

/-- **C78**: a client that asks for a file gets the file, its type and its digest. -/
theorem C78_file (env : ClientEnv) (fuel : Nat) (c : Client) (s : Conf) (h : AskedServer env fuel c s) (hq : 63 ∉ c.request.url.path)
    (fs : FileSystem) (dec md5 text : Bytes → Bytes) (pub : Bytes) (bufferSize : Nat) (content : Bytes) (hf : ServedFile fs pub (dec c.request.url.path) content)
    (hs : content.length ≤ bufferSize) (hl : content.length < 2147483648) (hmd : Hex (md5 content)) (hml : (md5 content).length = 32)
    (hn : getFieldValue c.request.headers b!"If-None-Match" ≠ md5 content) :
    ∃ call n t hd b, fileHandle fs dec md5 text pub bufferSize s.c.req = .answer call ∧ s.run (.call call :: taus n) = some t ∧ t.inEnv = true ∧
      t.c.log = s.c.log ++ .head hd :: b ++ [.completed] ∧ ∀ inputs, Reaches (wireOf (.head hd :: b)) inputs →
        (∃ shown, HasType (dec c.request.url.path) (firstValue shown b!"content-type") ∧ firstValue shown b!"etag" = md5 content ∧
          ReportsAs c.log (c.run env fuel inputs).log 200 shown (due c.request content)) ∧ WellServed env fuel (c.run env fuel inputs) := by
  have hdel := C78_shown env fuel c s h
  have hpath := delivered_path hdel hq
  have hact := (C53_small fs dec md5 text pub bufferSize s.c.req content (readable_of hf hpath) hs).2 (by rw [delivered_match hdel]; exact hn)
  obtain ⟨hpl, hln⟩ := mime_plain (dec s.c.req.path)
  have hhs : ∀ x ∈ ([⟨b!"Content-Type", getMimeTypeForFilename (dec s.c.req.path)⟩, ⟨b!"ETag", md5 content⟩] : Headers), x = ⟨b!"Content-Type", getMimeTypeForFilename (dec s.c.req.path)⟩ ∨ x = ⟨b!"ETag", md5 content⟩ := by
    intro x hx; simpa using hx
  obtain ⟨n, t, hd, b, h1, h2, h3, h4, h5⟩ := C78_answer env fuel c s h 200 [⟨b!"Content-Type", getMimeTypeForFilename (dec s.c.req.path)⟩, ⟨b!"ETag", md5 content⟩] content (by decide) (by decide)
    (by intro x hx; rcases hhs x hx with rfl | rfl; exact hpl; exact etag_plain hmd)
    (by intro x hx; rcases hhs x hx with rfl | rfl; exact (show ¬ SameCI b!"Content-Type" b!"content-length" by decide +kernel); exact (show ¬ SameCI b!"ETag" b!"content-length" by decide +kernel))
    (by simp only [headerBytes, List.map_cons, List.map_nil, List.sum_cons, List.sum_nil, hml, List.length_cons, List.length_nil]; omega) hl
    (.inl (by rintro ⟨x, hx, k, -⟩; rcases hhs x hx with rfl | rfl; exact absurd (show SameCI b!"Content-Type" b!"content-encoding" from k) (by decide +kernel); exact absurd (show SameCI b!"ETag" b!"content-encoding" from k) (by decide +kernel)))
  refine ⟨_, n, t, hd, b, hact, h1, h2, h3, fun inputs hr => ?_⟩
  obtain ⟨⟨shown, k1, k2⟩, k3⟩ := h5 inputs hr
  refine ⟨⟨shown, ?_, ?_, k2⟩, k3⟩
  · obtain ⟨len, -, -, e⟩ := k1
    rw [h4] at e
    rw [← hpath, e, (shown_file _ _ _ _ _ _).2.1]
    exact (C74_type _ _).2 rfl
  · obtain ⟨len, -, -, e⟩ := k1
    rw [h4] at e
    rw [e, (shown_file _ _ _ _ _ _).2.2]

/-- **C78**: a client that asks again, and names the digest it was given (`C78_file`), is told that the file has not changed, and gets no content. -/
theorem C78_not_modified (env : ClientEnv) (fuel : Nat) (c : Client) (s : Conf) (h : AskedServer env fuel c s) (hq : 63 ∉ c.request.url.path)
    (fs : FileSystem) (dec md5 text : Bytes → Bytes) (pub : Bytes) (bufferSize : Nat) (content : Bytes) (hf : ServedFile fs pub (dec c.request.url.path) content)
    (hs : content.length ≤ bufferSize) (hn : getFieldValue c.request.headers b!"If-None-Match" = md5 content) :
    ∃ call n t hd b, fileHandle fs dec md5 text pub bufferSize s.c.req = .answer call ∧ s.run (.call call :: taus n) = some t ∧ t.inEnv = true ∧
      t.c.log = s.c.log ++ .head hd :: b ++ [.completed] ∧ ∀ inputs, Reaches (wireOf (.head hd :: b)) inputs →
        (∃ shown, ReportsAs c.log (c.run env fuel inputs).log 304 shown []) ∧ WellServed env fuel (c.run env fuel inputs) := by
  have hdel := C78_shown env fuel c s h
  have hpath := delivered_path hdel hq
  have hact := (C53_small fs dec md5 text pub bufferSize s.c.req content (readable_of hf hpath) hs).1 (by rw [delivered_match hdel]; exact hn)
  obtain ⟨n, t, hd, b, h1, h2, h3, h4, h5⟩ := C78_answer env fuel c s h 304 [] [] (by decide) (by decide) (by simp) (by simp) (by decide) (by decide) (.inl (by rintro ⟨x, hx, -⟩; cases hx))
  refine ⟨_, n, t, hd, b, hact, h1, h2, h3, fun inputs hr => ?_⟩
  obtain ⟨⟨shown, -, k2⟩, k3⟩ := h5 inputs hr
  have e0 : due c.request [] = [] := by unfold due; split <;> rfl
  rw [e0] at k2
  exact ⟨⟨shown, k2⟩, k3⟩

theorem length_plain (n : Nat) : PlainHeader ⟨b!"Content-Length", decimal n⟩ := by
  have hall : ∀ b ∈ decimal n, TextChar b ∧ b ≠ 32 ∧ b ≠ 9 := fun b hb => mem_digits hb
  refine ⟨⟨by simp, by show ∀ b ∈ b!"Content-Length", TokenChar b; decide +kernel⟩, ⟨fun b hb => (hall b hb).1, fun e => (hall 32 (List.mem_of_mem_head? e)).2.1 rfl, fun e => (hall 9 (List.mem_of_mem_head? e)).2.2 rfl⟩,
    by show ¬ SameCI b!"Content-Length" b!"upgrade"; decide +kernel, fun h => absurd (show SameCI b!"Content-Length" b!"transfer-encoding" from h) (by decide +kernel)⟩

theorem first_end : ∀ {a b : List Ev} {x y : Ev} {xs ys : List Ev}, NotEnded a → NotEnded b → (x = .completed ∨ ∃ f u, x = .closed f u) → (y = .completed ∨ ∃ f u, y = .closed f u) →
    a ++ x :: xs = b ++ y :: ys → a = b ∧ x = y
  | [], [], _, _, _, _, _, _, _, _, e => by simp only [List.nil_append, List.cons.injEq] at e; exact ⟨rfl, e.1⟩
  | [], z :: b, x, _, _, _, _, hb, hx, _, e => by
    simp only [List.nil_append, List.cons_append, List.cons.injEq] at e
    rw [e.1] at hx
    have := hb z (by simp)
    rcases hx with h | ⟨f, u, h⟩
    · exact absurd h this.1
    · exact absurd h (this.2 f u)
  | z :: a, [], _, y, _, _, ha, _, _, hy, e => by
    simp only [List.nil_append, List.cons_append, List.cons.injEq] at e
    rw [← e.1] at hy
    have := ha z (by simp)
    rcases hy with h | ⟨f, u, h⟩
    · exact absurd h this.1
    · exact absurd h (this.2 f u)
  | z :: a, w :: b, _, _, _, _, ha, hb, hx, hy, e => by
    simp only [List.cons_append, List.cons.injEq] at e
    obtain ⟨h1, h2⟩ := first_end (fun e he => ha e (by simp [he])) (fun e he => hb e (by simp [he])) hx hy e.2
    exact ⟨by rw [e.1, h1], h2⟩

theorem noHead_of {t : Conf} (hr : Reach Proper t) {a b d : List Ev} {h : RespHead} (e : t.c.log = a ++ .head h :: (b ++ d)) (hb : NotEnded b) : NoHead b := by
  obtain ⟨-, ph, hruns⟩ := reach_log hr
  obtain ⟨r, -, -, -, hp⟩ := head_split hruns e
  obtain ⟨q, h1, -⟩ := hp.append
  intro x hx h' e'
  subst e'
  rcases (writing_path r h b h1 hb).1.only _ hx with ⟨_, k⟩ | ⟨_, k, -⟩ | ⟨_, k, -⟩ | ⟨k, -⟩ <;> cases k

theorem shown_length (v : ReqView) (t e : Bytes) (len : Option Bytes) (keep chunked : Bool) :
    firstValue (sentHeaders v [⟨b!"Content-Type", t⟩, ⟨b!"Content-Length", e⟩] len keep chunked) b!"content-type" = t := by
  have k1 : decide (Special ⟨b!"Content-Type", t⟩) = true := decide_eq_true (Or.inr (Or.inl (show SameCI b!"Content-Type" b!"content-type" by decide +kernel)))
  have k2 : decide (Special ⟨b!"Content-Length", e⟩) = true := decide_eq_true (Or.inl (show SameCI b!"Content-Length" b!"content-length" by decide +kernel))
  have a1 : decide (SameCI b!"Content-Type" b!"content-type") = true := by decide +kernel
  have a2 : decide (SameCI b!"Content-Length" b!"content-type") = false := by decide +kernel
  cases len <;> simp [sentHeaders, typePart, lastHeader, List.filter_cons, k1, k2, a1, a2, firstValue, lengthPart, List.find?_cons]

/-- **C78**: a file that does not fit in the buffer is transferred in parts, whatever else happens meanwhile (only, nobody else writes to the connection): when the
response is complete and has reached the client, the client has the file. -/
theorem C78_large (env : ClientEnv) (fuel : Nat) (c : Client) (s : Conf) (h : AskedServer env fuel c s) (hg : ¬ IsHead c.request) (hnw : NoWrites s.stack) (hq : 63 ∉ c.request.url.path)
    (fs : FileSystem) (dec md5 text : Bytes → Bytes) (pub : Bytes) (bufferSize : Nat) (content : Bytes) (hf : ServedFile fs pub (dec c.request.url.path) content)
    (hs : bufferSize < content.length) (hl : content.length < 2147483648) :
    ∃ call t₀ hd, fileHandle fs dec md5 text pub bufferSize s.c.req = .transfer call content bufferSize ∧ s.run (.call call :: taus 3) = some t₀ ∧
      Transfers content bufferSize s.c.log hd ⟨t₀, Transfer.create content bufferSize, 1⟩ ∧
      ∀ x b d, Transfers content bufferSize s.c.log hd x → x.s.c.log = s.c.log ++ .head hd :: b ++ .completed :: d → NotEnded b → ∀ inputs, Reaches (wireOf (.head hd :: b)) inputs →
        (∃ shown, HasType (dec c.request.url.path) (firstValue shown b!"content-type") ∧ ReportsAs c.log (c.run env fuel inputs).log 200 shown content) ∧
        WellServed env fuel (c.run env fuel inputs) := by
  have hdel := C78_shown env fuel c s h
  have hpath := delivered_path hdel hq
  have hr := readable_of hf hpath
  obtain ⟨hpl, hln⟩ := mime_plain (dec s.c.req.path)
  have hact : fileHandle fs dec md5 text pub bufferSize s.c.req =
      .transfer (.writeHeaders 200 [⟨b!"Content-Type", getMimeTypeForFilename (dec s.c.req.path)⟩, ⟨b!"Content-Length", decimal content.length⟩]) content bufferSize := by
    have hp : pub.isPrefixOf (fs.canonical (pub ++ dec s.c.req.path)) = true := List.isPrefixOf_iff_prefix.2 hr.inside
    simp [fileHandle, hr.dir, hr.present, hr.isFile, hp, hr.content, show ¬ content.length ≤ bufferSize by omega]
  have hm : s.c.req.method ≠ b!"HEAD" := fun hm => hg ((asked_head h).1 hm)
  obtain ⟨-, -, -, t₀, hd, h1, h2, h3, h4, h5, h6, h7, h8⟩ := C33_start fs dec md5 text pub bufferSize s h.reach h.control h.fault h.handing hnw hm _ content bufferSize hact hl
  injection h4 with h4' h4
  refine ⟨_, t₀, hd, hact, h1, h5, fun x b d hx e hne inputs hreach => ?_⟩
  have hb : contentOf b = content ∧ NoHead b := by
    obtain ⟨b', d', e', n', hd', -, k⟩ := C33_exact_partial content bufferSize s.c.log hd x h3 hx
    have ee : b ++ .completed :: d = b' ++ d' := by
      have e' := e.symm.trans e'
      rw [List.append_assoc, List.append_cancel_left_eq, List.cons_append, List.cons.injEq] at e'
      exact e'.2
    refine ⟨?_, noHead_of (transfers_reach hx) (a := s.c.log) (h := hd) (d := .completed :: d) (by rw [e]; simp) hne⟩
    rcases hd' with rfl | ⟨d'', rfl⟩ | ⟨f, u, d'', rfl⟩
    · rw [List.append_nil] at ee
      exact absurd rfl (n' .completed (by rw [← ee]; simp)).1
    · rw [(first_end hne n' (.inl rfl) (.inl rfl) ee).1]
      exact k ⟨_, rfl⟩
    · exact absurd (first_end hne n' (.inl rfl) (.inr ⟨f, u, rfl⟩) ee).2 (by simp)
  obtain ⟨⟨shown, k1, k2⟩, k3⟩ := asked_answer h (transfers_reach hx) e hb.2 (by omega) (by rw [h2]; decide) (by rw [h2]; decide)
    (by rw [← h4]; intro x hx; simp only [List.mem_cons, List.not_mem_nil, or_false] at hx; rcases hx with rfl | rfl; exact hpl; exact length_plain _)
    (by
      rw [← h4]
      have : (decimal content.length).length ≤ 10 := digits10_len 9 _ (by omega)
      simp only [headerBytes, List.map_cons, List.map_nil, List.sum_cons, List.sum_nil, List.length_cons, List.length_nil]; omega)
    (.inl (by
      rw [← h4]
      rintro ⟨x, hx, k, -⟩
      simp only [List.mem_cons, List.not_mem_nil, or_false] at hx
      rcases hx with rfl | rfl
      · exact absurd (show SameCI b!"Content-Type" b!"content-encoding" from k) (by decide +kernel)
      · exact absurd (show SameCI b!"Content-Length" b!"content-encoding" from k) (by decide +kernel))) inputs hreach
  rw [hb.1, h2] at k2
  refine ⟨⟨shown, ?_, k2⟩, k3⟩
  obtain ⟨len, -, -, e⟩ := k1
  rw [← h4] at e
  rw [← hpath, e, shown_length]
  exact (C74_type _ _).2 rfl

theorem shown_len (v : ReqView) (t e len : Bytes) (keep chunked : Bool) :
    firstValue (sentHeaders v [⟨b!"Content-Type", t⟩, ⟨b!"Content-Length", e⟩] (some len) keep chunked) b!"content-length" = len := by
  have k1 : decide (Special ⟨b!"Content-Type", t⟩) = true := decide_eq_true (Or.inr (Or.inl (show SameCI b!"Content-Type" b!"content-type" by decide +kernel)))
  have k2 : decide (Special ⟨b!"Content-Length", e⟩) = true := decide_eq_true (Or.inl (show SameCI b!"Content-Length" b!"content-length" by decide +kernel))
  have a2 : decide (SameCI b!"Content-Length" b!"content-length") = true := by decide +kernel
  simp [sentHeaders, List.filter_cons, k1, k2, a2, firstValue, lengthPart, List.find?_cons]

/-- What `writeHeaders()` does for a HEAD request: the response is complete. -/
theorem head_written {s : Conf} (hr : Reach Proper s) (he : s.inEnv = true) (hf : s.c.fault = none) (hst : s.c.st = .sendingHeaders) (hm : s.c.req.method = b!"HEAD") (ctype : Bytes) (n : Nat)
    (hlt : n < 2147483648) :
    ∃ (t : Conf) (h : RespHead), s.run (.call (.writeHeaders 200 [⟨b!"Content-Type", ctype⟩, ⟨b!"Content-Length", decimal n⟩]) :: taus 3) = some t ∧ t.inEnv = true ∧
      t.c.log = s.c.log ++ [.head h] ++ [.completed] ∧ h.status = 200 ∧ h.len = n ∧ h.chunked = false ∧ h.headers = [⟨b!"Content-Type", ctype⟩, ⟨b!"Content-Length", decimal n⟩] := by
  have hdl := file_declared ctype n (by omega)
  generalize hhs : ([⟨b!"Content-Type", ctype⟩, ⟨b!"Content-Length", decimal n⟩] : Headers) = hs at hdl ⊢
  obtain ⟨ph, hruns, hne, hph⟩ := reach_phase hr he hf
  rcases hph with ⟨hset, hcore⟩ | ⟨-, e | ⟨e, -⟩⟩
  rotate_left
  · rw [hst] at e; cases e
  · rw [hst] at e; cases e
  obtain ⟨rfl, h2, h3, h4, h5, h6, h7⟩ := (settled_sendH hst).1 hset
  obtain ⟨d, hd⟩ := Option.isSome_iff_exists.1 (hcore.dev (by rw [hst]; simp) (by rw [hst]; simp))
  have hbuf : s.c.respBuf = [] := hcore.resp (inEnv_head he).2
  have hsome : (buildHead [] (s.c.req.version == b!"HTTP/1.1") s.c.req (-1) false 200 hs).isSome = true := by
    unfold buildHead
    simp only [List.nil_append]
    have sp := scan_spec hs { out := statusLine s.c.req 200, len := -1 }
    rw [sp.len, lengthLine_isSome _ (by rw [hdl]; omega)]
    rfl
  obtain ⟨h, hh⟩ := Option.isSome_iff_exists.1 hsome
  have hspec := head_spec hh
  have hlen : h.len = n := by rw [hspec.len, hdl]
  have hch : h.chunked = false := by
    cases hc : h.chunked with
    | false => rfl
    | true => have := (hspec.chunked.1 hc).2.1; omega
  have e1 : exec 0 (.writeHeaders 200 hs) s.c = ({ s.c with status := 200, respBuf := h.bytes, respLen := h.len, chunked := h.chunked, keepAlive := h.keepAlive, dev := some { d with pending := d.pending + h.bytes.length }, log := s.c.log ++ [.head h] }, [.sendContent]) := by
    simp only [exec, Conn.writeHeaders]
    rw [if_neg (by simp [hst])]
    simp only [readView_valid h6, hbuf, h3, h4, h5]
    rw [hh]
    simp only [Conn.write, hd]
    rfl
  generalize hc1 : ({ s.c with status := 200, respBuf := h.bytes, respLen := h.len, chunked := h.chunked, keepAlive := h.keepAlive, dev := some { d with pending := d.pending + h.bytes.length }, log := s.c.log ++ [.head h] } : Conn) = c1 at e1
  have e2 : exec 0 .sendContent c1 = ({ c1 with st := .sendingContent, respBuf := [] }, [.completed, .sendContentRest]) := by
    have v : c1.viewsValid = true := by rw [← hc1]; exact h6
    have s1 : c1.st = .sendingHeaders := by rw [← hc1]; exact hst
    have m1 : c1.req.method = b!"HEAD" := by rw [← hc1]; exact hm
    simp only [exec, Conn.sendContent]
    rw [if_neg (by simp [s1])]
    have hv : ({ c1 with st := .sendingContent, respBuf := [] } : Conn).readView = { c1 with st := .sendingContent, respBuf := [] } := readView_valid v
    have : ({ c1 with st := .sendingContent, respBuf := [] } : Conn).isHead = true := by simp [Conn.isHead, m1]
    rw [hv]
    simp [this]
  have f1 : c1.fault = none := by rw [← hc1]; exact hf
  have l1 : c1.log = s.c.log ++ [.head h] := by rw [← hc1]
  refine ⟨⟨{ c1 with st := .completed, respBuf := [], log := c1.log ++ [.completed] }, .env :: .completedRest :: .sendContentRest :: s.stack⟩, h, ?_, rfl, by simp [l1], hspec.code, hlen, hch, hspec.hdrs⟩
  show s.run (.call (.writeHeaders 200 hs) :: .tau 0 :: [.tau 0, .tau 0]) = _
  rw [run_call he hf]
  simp only [Call.instr, e1, List.singleton_append]
  rw [run_tau (by simp) f1, e2, List.cons_append, run_tau (by simp) (by exact f1)]
  simp only [exec, Conn.complete]
  rw [if_neg (by simp)]
  rfl

/-- **C78**: a HEAD request for such a file: nothing is transferred, the response is complete with its head and the client has the headers (among them the length of the file) and no content. -/
theorem C78_large_head (env : ClientEnv) (fuel : Nat) (c : Client) (s : Conf) (h : AskedServer env fuel c s) (hg : IsHead c.request) (hq : 63 ∉ c.request.url.path)
    (fs : FileSystem) (dec md5 text : Bytes → Bytes) (pub : Bytes) (bufferSize : Nat) (content : Bytes) (hf : ServedFile fs pub (dec c.request.url.path) content)
    (hs : bufferSize < content.length) (hl : content.length < 2147483648) :
    ∃ call t hd, fileHandle fs dec md5 text pub bufferSize s.c.req = .transfer call content bufferSize ∧ s.run (.call call :: taus 3) = some t ∧ t.inEnv = true ∧
      t.c.log = s.c.log ++ [.head hd] ++ [.completed] ∧ ∀ inputs, Reaches (wireOf [.head hd]) inputs →
        (∃ shown, HasType (dec c.request.url.path) (firstValue shown b!"content-type") ∧ readNat 10 (firstValue shown b!"content-length") = some content.length ∧
          ReportsAs c.log (c.run env fuel inputs).log 200 shown []) ∧ WellServed env fuel (c.run env fuel inputs) := by
  have hdel := C78_shown env fuel c s h
  have hpath := delivered_path hdel hq
  have hr := readable_of hf hpath
  obtain ⟨hpl, hln⟩ := mime_plain (dec s.c.req.path)
  have hact : fileHandle fs dec md5 text pub bufferSize s.c.req =
      .transfer (.writeHeaders 200 [⟨b!"Content-Type", getMimeTypeForFilename (dec s.c.req.path)⟩, ⟨b!"Content-Length", decimal content.length⟩]) content bufferSize := by
    have hp : pub.isPrefixOf (fs.canonical (pub ++ dec s.c.req.path)) = true := List.isPrefixOf_iff_prefix.2 hr.inside
    simp [fileHandle, hr.dir, hr.present, hr.isFile, hp, hr.content, show ¬ content.length ≤ bufferSize by omega]
  have hm : s.c.req.method = b!"HEAD" := (asked_head h).2 hg
  obtain ⟨t, hd, h1, h2, h3, h4, h5, hch, h6⟩ := head_written h.reach h.control h.fault h.handing hm (getMimeTypeForFilename (dec s.c.req.path)) content.length (by omega)
  refine ⟨_, t, hd, hact, h1, h2, h3, fun inputs hreach => ?_⟩
  have ht : Reach Proper t := reach_run h.reach h1 (by
    intro l hl; simp only [taus, List.replicate, List.mem_cons, List.not_mem_nil, or_false] at hl; rcases hl with rfl | rfl | rfl | rfl <;> simp)
  obtain ⟨⟨shown, k1, k2⟩, k3⟩ := asked_answer h ht (b := []) (d := []) (by rw [h3]) (fun e he => by cases he) (by omega) (by rw [h4]; decide) (by rw [h4]; decide)
    (by rw [h6]; intro x hx; simp only [List.mem_cons, List.not_mem_nil, or_false] at hx; rcases hx with rfl | rfl; exact hpl; exact length_plain _)
    (by
      rw [h6]
      have : (decimal content.length).length ≤ 10 := digits10_len 9 _ (by omega)
      simp only [headerBytes, List.map_cons, List.map_nil, List.sum_cons, List.sum_nil, List.length_cons, List.length_nil]; omega)
    (.inl (by
      rw [h6]
      rintro ⟨x, hx, k, -⟩
      simp only [List.mem_cons, List.not_mem_nil, or_false] at hx
      rcases hx with rfl | rfl
      · exact absurd (show SameCI b!"Content-Type" b!"content-encoding" from k) (by decide +kernel)
      · exact absurd (show SameCI b!"Content-Length" b!"content-encoding" from k) (by decide +kernel))) inputs hreach
  rw [h4] at k2
  refine ⟨⟨shown, ?_, ?_, k2⟩, k3⟩
  · obtain ⟨len, -, -, e⟩ := k1
    rw [h6] at e
    rw [← hpath, e, shown_length]
    exact (C74_type _ _).2 rfl
  · obtain ⟨len, k, -, e⟩ := k1
    rw [h6, hch, if_neg (by simp)] at e
    rw [e, shown_len, k, h5]
    rfl

/-! ## Example -/

/-- A client asks for `/`; the server has received the request in two pieces and hands it to a handler. -/
theorem demo_asked : ∃ s, AskedServer demoEnv 2 demoTaking s ∧ NoWrites s.stack := by
  obtain ⟨t, h1, h2⟩ := exists_of_endsIn (allowed := Proper) (ls := [.init, .recv (demoWire.take 9), .call .processInput] ++ taus 1 ++ [.recv (demoWire.drop 9), .call .processInput] ++ taus 3)
    (p := fun s => s.inEnv && s.c.fault == none && s.c.st == .sendingHeaders && received (epoch s.c.log) == demoWire && (readys (epoch s.c.log)).length == 1 &&
      s.stack.all fun i => match i with | .writeContent _ | .writeResponseRest _ | .writeResponse .. => false | _ => true) (by decide +kernel)
  simp only [Bool.and_eq_true, beq_iff_eq] at h2
  obtain ⟨⟨⟨⟨⟨k1, k2⟩, k3⟩, k4⟩, k5⟩, k6⟩ := h2
  have hsaid : said demoTaking.log = [(demoTaking.request, demoWire)] := by decide +kernel
  refine ⟨t, ⟨demoTaking_served, demoTaking_awaiting, ⟨[], demoWire, hsaid⟩, ?_, h1, k1, k2, k3, by rw [k4, hsaid]; simp, by rw [k5, hsaid]; rfl⟩, ?_⟩
  · rw [hsaid]
    intro q hq
    simp only [List.mem_singleton] at hq
    subst hq
    have : demoTaking.request = demoReq b!"GET" := by decide +kernel
    rw [this]; exact demo_askable
  · intro i hi
    have := List.all_eq_true.1 k6 i hi
    refine ⟨?_, ?_, ?_⟩
    · rintro ct rfl; cases this
    · rintro ct rfl; cases this
    · rintro st hs ct rfl; cases this

/-- A file in the public directory (the path of the request above is `/`; `p` stands for what `dec` makes of it). -/
theorem demo_file (pub p content : Bytes) (h : pub ≠ []) : ServedFile (demoFs pub p content) pub p content :=
  ⟨h, by simp [demoFs], by simp [demoFs], by simp [demoFs], by simp [demoFs]⟩

/-- The hypotheses of `C78_file` and `C78_large` are met: a file of five bytes, with buffers of a hundred bytes and of four. -/
example : ∃ s : Conf, (∃ (call : Call) (n : Nat) (t : Conf) (hd : RespHead) (b : List Ev), fileHandle (demoFs b!"/srv" b!"/a.png" b!"hello") (fun _ => b!"/a.png") (fun _ => List.replicate 32 97) id b!"/srv" 100 s.c.req = .answer call ∧ s.run (.call call :: taus n) = some t ∧
      t.inEnv = true ∧ t.c.log = s.c.log ++ .head hd :: b ++ [.completed] ∧ ∀ inputs, Reaches (wireOf (.head hd :: b)) inputs →
        (∃ shown, HasType b!"/a.png" (firstValue shown b!"content-type") ∧ firstValue shown b!"etag" = List.replicate 32 97 ∧
          ReportsAs demoTaking.log (demoTaking.run demoEnv 2 inputs).log 200 shown b!"hello") ∧ WellServed demoEnv 2 (demoTaking.run demoEnv 2 inputs)) ∧
    ∃ call t₀ hd, fileHandle (demoFs b!"/srv" b!"/a.png" b!"hello") (fun _ => b!"/a.png") (fun _ => List.replicate 32 97) id b!"/srv" 4 s.c.req = .transfer call b!"hello" 4 ∧ s.run (.call call :: taus 3) = some t₀ ∧
      Transfers b!"hello" 4 s.c.log hd ⟨t₀, Transfer.create b!"hello" 4, 1⟩ := by
  obtain ⟨s, hs, hn⟩ := demo_asked
  have hg : ¬ IsHead demoTaking.request := by unfold IsHead; decide +kernel
  have hd : due demoTaking.request b!"hello" = b!"hello" := if_neg hg
  refine ⟨s, hd ▸ C78_file demoEnv 2 demoTaking s hs (by decide +kernel) (demoFs b!"/srv" b!"/a.png" b!"hello") (fun _ => b!"/a.png") (fun _ => List.replicate 32 97) id b!"/srv" 100 b!"hello"
    (demo_file _ _ _ (by simp)) (by decide) (by decide) (fun b hb => by rw [List.eq_of_mem_replicate hb]; decide) (by simp) (by decide +kernel), ?_⟩
  obtain ⟨call, t₀, hd, h1, h2, h3, -⟩ := C78_large demoEnv 2 demoTaking s hs hg hn (by decide +kernel) (demoFs b!"/srv" b!"/a.png" b!"hello") (fun _ => b!"/a.png") (fun _ => List.replicate 32 97) id b!"/srv" 4 b!"hello"
    (demo_file _ _ _ (by simp)) (by decide) (by decide)
  exact ⟨call, t₀, hd, h1, h2, h3⟩

/-! A HEAD request for a file that does not fit in the buffer. -/

def demoPeeking : Client := (Client.new [] [] [] []).run demoEnv 2 [.call (.request (demoReq b!"HEAD")), .connected]
def demoPeekWire : Bytes := b!"HEAD / HTTP/1.1\r\nHost: h\r\n\r\n"

theorem demo_peeked : ∃ s, AskedServer demoEnv 2 demoPeeking s := by
  obtain ⟨t, h1, h2⟩ := exists_of_endsIn (allowed := Proper) (ls := [.init, .recv (demoPeekWire.take 9), .call .processInput] ++ taus 1 ++ [.recv (demoPeekWire.drop 9), .call .processInput] ++ taus 3)
    (p := fun s => s.inEnv && s.c.fault == none && s.c.st == .sendingHeaders && received (epoch s.c.log) == demoPeekWire && (readys (epoch s.c.log)).length == 1) (by decide +kernel)
  simp only [Bool.and_eq_true, beq_iff_eq] at h2
  obtain ⟨⟨⟨⟨k1, k2⟩, k3⟩, k4⟩, k5⟩ := h2
  have hsaid : said demoPeeking.log = [(demoPeeking.request, demoPeekWire)] := by decide +kernel
  refine ⟨t, wellServed_run demoEnv 2 _ (.new ..) (by simp), ⟨by decide +kernel, by decide +kernel, by decide +kernel, ?_, ?_⟩, ⟨[], demoPeekWire, hsaid⟩, ?_, h1, k1, k2, k3, by rw [k4, hsaid]; simp, by rw [k5, hsaid]; rfl⟩
  · have : demoPeeking.onHeaders = [] := by decide +kernel
    rw [this]; intro l hl; cases hl
  · have : demoPeeking.onContent = [] := by decide +kernel
    rw [this]; intro l hl; cases hl
  · rw [hsaid]
    intro q hq
    simp only [List.mem_singleton] at hq
    subst hq
    have : demoPeeking.request = demoReq b!"HEAD" := by decide +kernel
    rw [this]; exact demo_askable_head

/-- The hypotheses of `C78_large_head` are met. -/
example : ∃ (s : Conf) (call : Call) (t : Conf) (hd : RespHead), fileHandle (demoFs b!"/srv" b!"/a.png" b!"hello") (fun _ => b!"/a.png") (fun _ => List.replicate 32 97) id b!"/srv" 4 s.c.req = .transfer call b!"hello" 4 ∧
    s.run (.call call :: taus 3) = some t ∧ t.inEnv = true ∧ t.c.log = s.c.log ++ [.head hd] ++ [.completed] ∧ ∀ inputs, Reaches (wireOf [.head hd]) inputs →
      (∃ shown, HasType b!"/a.png" (firstValue shown b!"content-type") ∧ readNat 10 (firstValue shown b!"content-length") = some 5 ∧
        ReportsAs demoPeeking.log (demoPeeking.run demoEnv 2 inputs).log 200 shown []) ∧ WellServed demoEnv 2 (demoPeeking.run demoEnv 2 inputs) := by
  obtain ⟨s, hs⟩ := demo_peeked
  exact ⟨s, C78_large_head demoEnv 2 demoPeeking s hs (by unfold IsHead; decide +kernel) (by decide +kernel) (demoFs b!"/srv" b!"/a.png" b!"hello") (fun _ => b!"/a.png") (fun _ => List.replicate 32 97) id b!"/srv" 4
    b!"hello" (demo_file _ _ _ (by simp)) (by decide) (by decide)⟩

end Pillow.Props
