import Verif.Lemmas.ConnStep
set_option linter.unusedSimpArgs false
set_option linter.unusedVariables false
namespace Pillow
open Spec

variable {lo : Bool}

theorem shown_headers (h : ReqHead) (c : Bytes) : (h.shown c).headers = h.headers.map fun l => ⟨l.name, l.value⟩ := by
  unfold ReqHead.shown; split <;> rfl

theorem shown_content (h : ReqHead) (c : Bytes) : (h.shown c).content = c := by
  unfold ReqHead.shown; split <;> rfl

theorem tok_firstValue (hs : Headers) (tok : Bytes) (ht : ∀ b ∈ tok, ¬ (65 ≤ b ∧ b ≤ 90)) :
    getFieldValueTok hs tok = firstValue hs tok := by
  induction hs with
  | nil => rfl
  | cons h hs ih =>
    unfold firstValue at *
    simp only [getFieldValueTok, List.find?_cons]
    by_cases hc : SameCI h.name tok
    · rw [if_pos ((asciiEqualsCILower_iff _ _ ht).2 hc)]; simp [hc]
    · rw [if_neg (fun e => hc ((asciiEqualsCILower_iff _ _ ht).1 e)), ih]; simp [hc]

theorem expects_iff (h : ReqHead) : expects h = true ↔
    SameCI (firstValue (h.headers.map fun l => ⟨l.name, l.value⟩) b!"expect") b!"100-continue" := by
  unfold expects
  rw [asciiEqualsCILower_iff _ _ (by decide), tok_firstValue _ _ (by decide)]

theorem wants_iff (h : ReqHead) (tail : Bytes) (n : Nat) (hn : n ≤ tail.length) :
    (decide (0 < n) && expects h) = true ↔ WantsContinue (h.shown (tail.take n)) := by
  unfold WantsContinue
  rw [shown_headers, shown_content]
  simp only [Bool.and_eq_true, decide_eq_true_eq]
  apply and_congr
  · constructor
    · intro h0 e
      have := congrArg List.length e
      rw [List.length_take, Nat.min_eq_left hn, List.length_nil] at this; omega
    · intro h0
      rcases Nat.eq_zero_or_pos n with rfl | h
      · simp at h0
      · exact h
  · exact expects_iff h

/-! ### `transitionToSendingHeaders` -/

theorem step_sendHeaders {c : Conn} {rest : List Instr} (h : Core lo c (.sendHeaders :: rest)) :
    Core lo c.sendHeaders.1 (c.sendHeaders.2 ++ rest) := by
  obtain ⟨ph, hruns, hst, reqs, hd, tail, n, hrc, hn⟩ := h.data
  have hsens := sens_rest_free h rfl (by rw [hst]; rfl)
  have hdev := h.dev (by rw [hst]; simp) (by rw [hst]; simp)
  have hh := hrc.head
  -- the buffer after the optional second set-up
  generalize hc1 : (if ({ c with st := CState.sendingHeaders } : Conn).hdrN ≠ ({ c with st := CState.sendingHeaders } : Conn).refs.length
    then ({ c with st := CState.sendingHeaders } : Conn).setup else { c with st := CState.sendingHeaders }) = c1
  have h1 : c1.st = .sendingHeaders ∧ c1.log = c.log ∧ c1.parser = c.parser ∧ c1.refs = c.refs ∧ c1.clen = c.clen ∧
      c1.dev = c.dev ∧ c1.respBuf = c.respBuf ∧ c1.fault = c.fault ∧ c1.hdrN = c.refs.length ∧
      HeadBuf hd c.parser tail c1.buf := by
    rw [← hc1]
    split
    · refine ⟨rfl, rfl, rfl, rfl, rfl, rfl, rfl, rfl, rfl, ?_⟩
      show HeadBuf hd c.parser tail (setupHeaders c.buf c.refs)
      rw [hh.refs]; exact hh.buf.setup hh.parser
    · rename_i he
      exact ⟨rfl, rfl, rfl, rfl, rfl, rfl, rfl, rfl, by simpa using he, hh.buf⟩
  obtain ⟨e1, e2, e3, e4, e5, e6, e7, e8, e9, hb⟩ := h1
  have hclen : c1.clen.toNat = n := by rw [e5, hrc.clen]; rfl
  have hreq : requestView c1.parser (c1.refs.take c1.hdrN) (prepareFields c1.parser c1.buf).1 (prepareFields c1.parser c1.buf).2
      c1.clen.toNat = hd.shown (tail.take n) := by
    rw [hclen, e3, e4, e9, List.take_length, hh.refs]
    exact requestView_eq hh.wf hh.parser hb n
  have hSH : c.sendHeaders = (Conn.emit { c1 with
      buf := (prepareFields c1.parser c1.buf).1, req := hd.shown (tail.take n), uriDec := [], fragDec := [], pathDec := [],
      queryDec := [], http11 := (hd.shown (tail.take n)).version == b!"HTTP/1.1", viewsValid := true,
      staleRead := c1.staleRead || !c1.hdrValid, respLen := -1, sent := 0, keepAlive := true, chunked := false }
        (.ready (hd.shown (tail.take n))), [.env]) := by
    unfold Conn.sendHeaders
    rw [if_neg (by rw [hst]; simp)]
    simp only [hc1, hreq]
  rw [hSH]
  have hpl := prepareFields_length c1.parser c1.buf
  have hpd := prepareFields_drop (p := c1.parser) c1.buf (hdrStart hd) (by rw [e3]; exact fields_before hh.parser)
  have hbs := hh.parser.bodyStart
  have hrl := render_length hd
  refine core_push h ?_ (by simp) ?_ ?_ ?_ (ph := .busy (hd.shown (tail.take n))) ?_ ?_
  · exact e8.trans h.fault
  · rw [sens_free (by show c1.st.free = true; rw [e1]; rfl)]; simp [Instr.sens, hsens]
  · intro _ _; show c1.dev.isSome = true; rw [e6]; exact hdev
  · intro _; show c1.respBuf = []; rw [e7]; exact h.resp (by simp)
  · show Runs lo (c1.log ++ [_]) _
    rw [e2]
    refine .step _ _ _ _ hruns ?_
    rw [hrc.phase]
    exact .ready _ _ (wants_iff hd tail n hn)
  · show Settled true _ _
    refine (settled_sendH (by exact e1)).2 ⟨rfl, ⟨reqs ++ [(hd, tail.take n)], tail.drop n, ?_, ?_, ?_⟩, rfl, rfl, rfl, rfl, rfl⟩
    · show Hist (c1.log ++ [_]) _ _
      rw [e2]
      have key : ∀ inp, inp = c.inp → Hist (c.log ++ [.ready (hd.shown (tail.take n))]) (reqs ++ [(hd, tail.take n)]) (tail.drop n ++ inp) := by
        rintro _ rfl
        refine Hist.readyEv hh.hist hd (tail.take n) _ ?_ ⟨hh.wf, hh.short, ?_, ?_⟩
        · simp only [List.append_assoc]
          rw [← List.append_assoc (tail.take n), List.take_append_drop]
        · rw [hrc.announced]; simp; omega
        · have := hrc.small; simp; omega
      apply key
      simp [Conn.inp, unread, Conn.emit, e6]
    · show ((prepareFields c1.parser c1.buf).1.length : Int) - c1.parser.bodyStart - c1.clen = _
      rw [hpl, hb.len, e3, e5, hrc.clen, hbs]; simp; omega
    · show (prepareFields c1.parser c1.buf).1.drop ((prepareFields c1.parser c1.buf).1.length - _) = _
      have hk : (prepareFields c1.parser c1.buf).1.length - (tail.drop n).length = hdrStart hd + (hd.render.length + n - hdrStart hd) := by
        rw [hpl, hb.len]; simp; omega
      rw [hk, ← List.drop_drop, hpd, List.drop_drop]
      have : hdrStart hd + (hd.render.length + n - hdrStart hd) = c.parser.bodyStart + n := by rw [hbs]; omega
      rw [this, ← List.drop_drop, hb.drop]

/-! ### `transitionToSendingContent` -/

theorem step_sendContent {c : Conn} {rest : List Instr} (h : Core lo c (.sendContent :: rest)) :
    Core lo c.sendContent.1 (c.sendContent.2 ++ rest) := by
  obtain ⟨ph, hruns, hst, hbusy, hvv, hd, hresp, hph⟩ := h.data
  have hsens := sens_rest_free h rfl (by rw [hst]; rfl)
  have hdev := h.dev (by rw [hst]; simp) (by rw [hst]; simp)
  let c1 : Conn := { c with st := CState.sendingContent, respBuf := [] }
  have hrv : c1.readView = c1 := by
    unfold Conn.readView; rw [if_pos (show c1.viewsValid = true from hvv)]
  have hSC : c.sendContent = (if c.respLen = 0 then (c1, [.completed, .sendContentRest]) else
      if c1.isHead then (c1, [.completed, .sendContentRest]) else (c1, [.sendContentRest])) := by
    unfold Conn.sendContent
    rw [if_neg (by rw [hst]; simp)]
    show (if c1.respLen = 0 then (c1, ([.completed, .sendContentRest] : List Instr)) else _) = _
    rw [hrv]
  have hb1 : Busy c1 := hbusy.congr rfl rfl rfl rfl rfl
  have hr1 : Resp c1 hd 0 := hresp.congr rfl rfl rfl rfl
  have fin : ∀ push : List Instr, (∀ j ∈ push.tail, j.frame = true) → push.filter Instr.sens = [] →
      Data c1 ph (push ++ rest).head? → Core lo c1 (push ++ rest) := by
    intro push hpf hps hdata
    refine core_push h h.fault hpf ?_ (fun _ _ => hdev) (fun _ => rfl) hruns hdata
    rw [sens_free rfl, hps, hsens]; rfl
  have hhead : c1.isHead = true ↔ c.req.method = b!"HEAD" := by
    show (c.req.method == b!"HEAD") = true ↔ _
    simp
  by_cases h0 : c.respLen = 0 ∨ c.req.method = b!"HEAD"
  · have : c.sendContent = (c1, [.completed, .sendContentRest]) := by
      rw [hSC]
      split
      · rfl
      · rw [if_pos (hhead.2 (by rcases h0 with h0 | h0; contradiction; exact h0))]
    rw [this]
    refine fin _ (by simp [Instr.frame]) rfl ⟨rfl, hb1, hvv, hd, 0, hr1, .inl ?_⟩
    rw [hph, if_pos (by rw [← hresp.len]; exact h0)]
  · have h0' := not_or.1 h0
    have : c.sendContent = (c1, [.sendContentRest]) := by
      rw [hSC, if_neg h0'.1, if_neg (fun e => h0'.2 (hhead.1 e))]
    rw [this]
    refine fin _ (by simp [Instr.frame]) rfl ?_
    show Settled true c1 ph
    refine (settled_sendC rfl).2 ⟨hd, 0, ?_, hr1, hb1, ?_, h0'.2, by simp, hvv⟩
    · rw [hph, if_neg (by rw [← hresp.len]; exact h0)]
    · rw [← hresp.len]; exact h0'.1

theorem settled_keep {c c' : Conn} {ph : Phase} (hset : Settled true c ph) (hc : c.respLen < 0 ∧ c.chunked = false)
    (e1 : c'.st = c.st) (e2 : c'.log = c.log) (e3 : c'.buf = c.buf) (e4 : c'.inp = c.inp) (e5 : c'.parser = c.parser)
    (e6 : c'.refs = c.refs) (e7 : c'.clen = c.clen) (e8 : c'.req = c.req) (e9 : c'.http11 = c.http11)
    (e10 : c'.chunked = c.chunked) (e11 : c'.respLen = c.respLen) (e12 : c'.viewsValid = c.viewsValid)
    (e13 : c'.sent = c.sent) (e14 : c'.keepAlive = false) : Settled true c' ph := by
  have same : c.keepAlive = false → Settled true c' ph := fun hk =>
    hset.congr ⟨e1, e2, e3, e4, e5, e6, e7, e8, e9, e10, e11, e12, e13, by rw [e14, hk]⟩
  cases hst : c.st with
  | sendingContent =>
    obtain ⟨hd, n, p1, p2, p3⟩ := (settled_sendC hst).1 hset
    apply same
    rw [p2.keep]
    cases hk : hd.keepAlive with
    | false => rfl
    | true =>
      rcases p2.delim hk with h1 | h1
      · rw [← p2.len] at h1; omega
      · rw [← p2.chunked, hc.2] at h1; cases h1
  | completed =>
    obtain ⟨p1, p2, p3⟩ := (settled_completed hst).1 hset
    apply same
    cases hk : c.keepAlive with
    | false => rfl
    | true =>
      rcases p2 hk with h1 | h1
      · omega
      · rw [hc.2] at h1; cases h1
  | receivingContent =>
    obtain ⟨reqs, hd, tail, n, h1, h2⟩ := (settled_recvC hst).1 hset
    exact (settled_recvC (e1.trans hst)).2 ⟨reqs, hd, tail, n, h1.congr e2 e3 e4 e5 e6 e7, h2⟩
  | receivingHeaders =>
    refine (settled_recvH (e1.trans hst)).2 ?_
    have := (settled_recvH hst).1 hset
    unfold RecvH at *
    rw [e2, e3, e4, e5, e6, e7]; exact this
  | sendingHeaders =>
    refine (settled_sendH (e1.trans hst)).2 ?_
    obtain ⟨h1, h2, h3⟩ := (settled_sendH hst).1 hset
    rw [e8, e9, e10, e11, e12, e13]
    exact ⟨h1, h2.congr e2 e3 e4 e5 e7, h3⟩
  | uninitialized =>
    unfold Settled at *; rw [e1, e2]; rw [hst] at hset ⊢; exact hset
  | flushing =>
    refine (settled_flushing (e1.trans hst)).2 ?_
    rw [e2]; exact (settled_flushing hst).1 hset
  | closed =>
    refine (settled_closed (e1.trans hst)).2 ?_
    rw [e2]; exact (settled_closed hst).1 hset

theorem data_env {c : Conn} {ph : Phase} (h : Settled true c ph) : Data c ph (some .env) := h
theorem data_drain {c : Conn} {ph : Phase} (h : Settled true c ph) : Data c ph (some .drain) := h
theorem data_processInput {c : Conn} {ph : Phase} (h : Settled false c ph) : Data c ph (some .processInput) := h

theorem step_sendContentRest {c : Conn} {rest : List Instr} (h : Core lo c (.sendContentRest :: rest)) :
    Core lo c.sendContentRest.1 (c.sendContentRest.2 ++ rest) := by
  obtain ⟨ph, hruns, hset⟩ := h.data
  have hset : Settled true c ph := hset
  show Core lo (if c.respLen < 0 ∧ c.chunked = false then { c with keepAlive := false } else c) ([] ++ rest)
  split
  · rename_i hc
    have key := settled_keep hset hc (c' := { c with keepAlive := false }) rfl rfl rfl rfl rfl rfl rfl rfl rfl rfl rfl rfl rfl rfl
    refine core_push h h.fault (by simp) ?_ h.dev (fun _ => h.resp (by simp)) hruns ((data_frame h.rest_frames).2 key)
    exact sens_keep h rfl (by simp) _ (head_frame h.rest_frames).1
  · exact core_skip h rfl (by simp) (by simp) hruns hset

/-! ### `transitionToCompleted` -/

theorem step_complete {c : Conn} {rest : List Instr} (h : Core lo c (.completed :: rest)) :
    Core lo c.complete.1 (c.complete.2 ++ rest) := by
  obtain ⟨ph, hruns, hst, hbusy, hvv, hd, n, hresp, hph⟩ := h.data
  have hsens := sens_rest_free h rfl (by rw [hst]; rfl)
  have hdev := h.dev (by rw [hst]; simp) (by rw [hst]; simp)
  have hC : c.complete = ({ c with st := CState.completed, log := c.log ++ [.completed] }, [.env, .completedRest]) := by
    unfold Conn.complete; rw [if_neg (by rw [hst]; simp)]; rfl
  rw [hC]
  refine core_push h h.fault (by simp [Instr.frame]) ?_ (fun _ _ => hdev) (fun _ => h.resp (by simp)) (ph := .after hd) ?_ ?_
  · show sensOk .completed c.viewsValid _ _
    rw [hvv, hsens]
    simp [sensOk, Instr.sens, List.filter_cons]
  · refine .step _ _ _ _ hruns ?_
    rcases hph with rfl | ⟨rfl, h1, h2, h3⟩
    · exact .completed _ _
    · exact .completedOpen _ _ _ h1 h2 h3
  · refine data_env ?_
    refine (settled_completed rfl).2 ⟨?_, ?_, ?_⟩
    · show Phase.after hd = if c.keepAlive then _ else _
      rw [hresp.keep]; rfl
    · show c.keepAlive = true → _
      rw [hresp.keep]; intro hk
      rcases hresp.delim hk with h1 | h1
      · left; show 0 ≤ c.respLen; rw [hresp.len]; exact h1
      · right; show c.chunked = true; rw [hresp.chunked]; exact h1
    · show if c.viewsValid = true then _ else _
      rw [if_pos hvv]
      obtain ⟨reqs, tail, h1, h2, h3⟩ := hbusy
      exact ⟨reqs, tail, h1.neutral trivial, h2, h3⟩

theorem rightBytes_eq (buf tail : Bytes) (h : buf.drop (buf.length - tail.length) = tail) : rightBytes buf tail.length = tail := h

theorem sens_top {c : Conn} {i : Instr} {rest : List Instr} (h : Core lo c (i :: rest)) (hi : i.sens = true) :
    sensOk c.st c.viewsValid none (i :: rest.filter Instr.sens) := by
  have := h.sens
  rw [List.head?_cons, List.filter_cons, if_pos hi] at this
  unfold sensOk at *
  rw [if_neg (by simp)]
  rw [if_neg (by intro e; simp at e; subst e; simp [Instr.sens] at hi)] at this
  exact this

theorem step_completedRest {c : Conn} {rest : List Instr} (h : Core lo c (.completedRest :: rest)) :
    Core lo c.completedRest.1 (c.completedRest.2 ++ rest) := by
  obtain ⟨ph, hruns, hset⟩ := h.data
  have hset : Settled true c ph := hset
  have hs := sens_top h rfl
  have hst : c.st = .completed ∧ c.viewsValid = true ∧ rest.filter Instr.sens = [] := by
    unfold sensOk at hs
    cases hst : c.st <;> rw [hst] at hs <;> simp at hs
    · refine ⟨rfl, ?_, by simpa using hs.2⟩
      cases hv : c.viewsValid
      · rw [hv] at hs; simp at hs
      · rfl
  obtain ⟨hst, hvv, hsens⟩ := hst
  have hdev := h.dev (by rw [hst]; simp) (by rw [hst]; simp)
  obtain ⟨hph, hdel, hb⟩ := (settled_completed hst).1 hset
  rw [if_pos hvv] at hb
  obtain ⟨reqs, tail, h1, h2, h3⟩ := hb
  let c1 : Conn := { c with buf := tail, refs := [], params := [], req := { c.req with content := [] }, viewsValid := false }
  have hCR : c.completedRest = if c.keepAlive then (c1, [.flush, .completedRest2]) else (c1, [.flushing]) := by
    unfold Conn.completedRest
    have : (if (c.buf.length : Int) - c.parser.bodyStart - c.clen > 0 then
        rightBytes c.buf ((c.buf.length : Int) - c.parser.bodyStart - c.clen).toNat else []) = tail := by
      rw [h2]
      split
      · rw [Int.toNat_natCast]; exact rightBytes_eq _ _ h3
      · rename_i h0
        have : tail.length = 0 := by omega
        exact (List.length_eq_zero_iff.1 this).symm
    simp only [this]
    rfl
  rw [hCR]
  have hdrop : Dropped c1 := ⟨reqs, h1, rfl⟩
  split
  · rename_i hk
    refine core_push h h.fault (by simp [Instr.frame]) ?_ (fun _ _ => hdev) (fun _ => h.resp (by simp)) hruns ?_
    · show sensOk c.st false _ _
      rw [hst, hsens]; simp [sensOk, Instr.sens, List.filter_cons]
    · show Settled true c1 ph
      refine (settled_completed (by exact hst)).2 ⟨hph, hdel, ?_⟩
      rw [if_neg (by simp [c1])]
      exact ⟨hdrop, hk⟩
  · rename_i hk
    refine core_push h h.fault (by simp [Instr.frame]) ?_ (fun _ _ => hdev) (fun _ => h.resp (by simp)) hruns ?_
    · show sensOk c.st false _ _
      rw [hst, hsens]; simp [sensOk, Instr.sens, List.filter_cons]
    · refine ⟨.inr (.inr hst), ?_, h1.weak⟩
      rw [hph, if_neg hk]

theorem step_completedRest2 {c : Conn} {rest : List Instr} (h : Core lo c (.completedRest2 :: rest)) :
    Core lo c.completedRest2.1 (c.completedRest2.2 ++ rest) := by
  obtain ⟨ph, hruns, hset⟩ := h.data
  have hset : Settled true c ph := hset
  have hs := sens_top h rfl
  have hst : c.st = .completed ∧ c.viewsValid = false ∧ rest.filter Instr.sens = [] := by
    unfold sensOk at hs
    cases hst : c.st <;> rw [hst] at hs <;> simp at hs
    · refine ⟨rfl, ?_, by simpa using hs.2⟩
      cases hv : c.viewsValid
      · rfl
      · rw [hv] at hs; simp at hs
  obtain ⟨hst, hvv, hsens⟩ := hst
  have hdev := h.dev (by rw [hst]; simp) (by rw [hst]; simp)
  obtain ⟨hph, hdel, hb⟩ := (settled_completed hst).1 hset
  rw [if_neg (by rw [hvv]; simp)] at hb
  obtain ⟨⟨reqs, h1, h2⟩, hk⟩ := hb
  have hC : c.completedRest2 = ({ c with st := CState.receivingHeaders, parser := c.parser.init, clen := 0, http11 := false }, [.processInput]) := by
    unfold Conn.completedRest2 Conn.toReceivingHeaders; rw [if_neg (by rw [hst]; simp)]
  rw [hC]
  refine core_push h h.fault (by simp [Instr.frame]) ?_ (fun _ _ => hdev) (fun _ => h.resp (by simp)) hruns ?_
  · rw [sens_free rfl, hsens]; rfl
  · refine data_processInput ?_
    refine (settled_recvH rfl).2 ⟨by rw [hph, hk]; rfl, reqs, c.parser, 0, h1, Nat.zero_le _, ?_, ?_, ?_, rfl, by simp⟩
    · rw [List.take_zero]; exact live_nil _
    · rw [List.take_zero]; rfl
    · exact h2

/-! ### flushing and closing -/

theorem step_flush {c : Conn} {rest : List Instr} (k : Nat) (h : Core lo c (.flush :: rest)) :
    Core lo (c.flush k).1 ((c.flush k).2 ++ rest) := by
  obtain ⟨ph, hruns, hset⟩ := h.data
  have hset : Settled true c ph := hset
  unfold Conn.flush
  split
  · exact core_skip h rfl (by simp) (by simp) hruns hset
  · rename_i d hd
    split
    · refine core_push h h.fault (by simp [Instr.frame]) ?_ (fun _ _ => rfl) (fun _ => h.resp (by simp)) hruns ?_
      · show sensOk c.st c.viewsValid _ _
        simpa [Instr.sens, List.filter_cons] using sens_keep h rfl (by simp) (some .env) (by simp)
      · show Settled true _ _
        refine hset.congr ⟨rfl, rfl, rfl, ?_, rfl, rfl, rfl, rfl, rfl, rfl, rfl, rfl, rfl, rfl⟩
        simp [Conn.inp, unread, hd]
    · exact core_skip h rfl (by simp) (by simp) hruns hset

theorem step_drain {c : Conn} {rest : List Instr} (h : Core lo c (.drain :: rest)) :
    Core lo c.drain.1 (c.drain.2 ++ rest) := by
  obtain ⟨ph, hruns, hset⟩ := h.data
  have hset : Settled true c ph := hset
  unfold Conn.drain
  split
  · exact core_skip h rfl (by simp) (by simp) hruns hset
  · rename_i hst
    have hst : c.st = .flushing := by simpa using hst
    refine core_push h h.fault (by simp [Instr.frame]) ?_ h.dev (fun _ => h.resp (by simp)) hruns hset
    have := sens_keep h rfl (by simp) (some .flush) (by simp)
    rw [hst] at this ⊢
    simp only [sensOk, reduceCtorEq, ↓reduceIte, Option.some.injEq] at this ⊢
    simp [Instr.sens, List.filter_cons]
    intro i hi1 hi2
    exact this i (List.mem_filter.2 ⟨hi1, hi2⟩)

/-- Popping a continuation in the states `flushing` and `closed`. -/
theorem pop_sens {c c' : Conn} {i : Instr} {rest : List Instr} {ph : Phase} (h : Core lo c (i :: rest)) (hi : i.sens = true)
    (hst : c.st = .flushing ∨ c.st = .closed) (hf : c'.fault = none) (e1 : c'.st = c.st) (hd : c.st = .flushing → c'.dev.isSome = true)
    (e4 : c'.respBuf = []) (hr : Runs lo c'.log ph) (hdata : Settled true c' ph) : Core lo c' ([] ++ rest) := by
  refine core_push h hf (by simp) ?_ ?_ (fun _ => e4) hr ((data_frame h.rest_frames).2 hdata)
  · have := sens_top h hi
    refine (sens_frame h.rest_frames none (by simp) _).2 ?_
    rw [e1]
    unfold sensOk at *
    rw [if_neg (by simp)] at this ⊢
    rcases hst with hst | hst <;> rw [hst] at this ⊢ <;> simp only at this ⊢ <;>
      exact fun j hj => this j (List.mem_cons_of_mem _ (by simpa using hj))
  · intro h1 h2
    rw [e1] at h2
    rcases hst with hst | hst
    · exact hd hst
    · exact absurd hst h2

theorem sens_state {c : Conn} {i : Instr} {rest : List Instr} (h : Core lo c (i :: rest)) (hi : i = .drainRest ∨ i = .flushingRest) :
    c.st = .flushing ∨ c.st = .closed := by
  have hs := sens_top h (by rcases hi with rfl | rfl <;> rfl)
  unfold sensOk at hs
  cases hst : c.st <;> rw [hst] at hs <;> simp at hs ⊢
  · rcases hi with rfl | rfl <;> (split at hs <;> simp at hs)

theorem step_drainRest {c : Conn} {rest : List Instr} (h : Core lo c (.drainRest :: rest)) :
    Core lo c.drainRest.1 (c.drainRest.2 ++ rest) := by
  obtain ⟨ph, hruns, hset⟩ := h.data
  have hset : Settled true c ph := hset
  have hst := sens_state h (.inl rfl)
  have hdv : c.st = .flushing → c.dev.isSome = true := fun e => h.dev (by rw [e]; simp) (by rw [e]; simp)
  unfold Conn.drainRest
  split
  · exact pop_sens h rfl hst h.fault rfl hdv (h.resp (by simp)) hruns hset
  · rename_i d hd
    split
    · rename_i hp
      refine core_push h h.fault (by simp) ?_ h.dev (fun _ => h.resp (by simp)) hruns ?_
      · have := sens_top h rfl
        unfold sensOk at *
        rw [if_neg (by simp)] at this ⊢
        rcases hst with hst | hst <;> rw [hst] at this ⊢ <;> simp only at this ⊢ <;>
          exact fun j hj => this j (List.mem_cons_of_mem _ (by simpa [Instr.sens, List.filter_cons] using hj))
      · exact ⟨hst, hset, fun _ => ⟨d, hd, hp⟩⟩
    · exact pop_sens h rfl hst h.fault rfl hdv (h.resp (by simp)) hruns hset

theorem step_toFlushing {c : Conn} {rest : List Instr} (h : Core lo c (.flushing :: rest)) :
    Core lo c.toFlushing.1 (c.toFlushing.2 ++ rest) := by
  obtain ⟨ph, hruns, hst, rfl, hw⟩ := h.data
  have hne : c.st ≠ .flushing := by rcases hst with e | e | e <;> rw [e] <;> simp
  have hdev := h.dev (by rcases hst with e | e | e <;> rw [e] <;> simp) (by rcases hst with e | e | e <;> rw [e] <;> simp)
  have hsens : rest.filter Instr.sens = [] := by
    have := h.sens
    simpa [sensOk, List.filter_cons, Instr.sens] using this
  unfold Conn.toFlushing
  rw [if_neg hne]
  refine core_push h h.fault (by simp [Instr.frame]) ?_ (fun _ _ => hdev) (fun _ => h.resp (by simp)) hruns ?_
  · rw [hsens]; simp [sensOk, Instr.sens, List.filter_cons]
  · refine data_drain ?_
    exact (settled_flushing rfl).2 ⟨rfl, hw⟩

theorem step_flushingRest {c : Conn} {rest : List Instr} (h : Core lo c (.flushingRest :: rest)) :
    Core lo c.flushingRest.1 (c.flushingRest.2 ++ rest) := by
  obtain ⟨ph, hruns, hset⟩ := h.data
  have hset : Settled true c ph := hset
  have hst := sens_state h (.inr rfl)
  have hdv : c.st = .flushing → c.dev.isSome = true := fun e => h.dev (by rw [e]; simp) (by rw [e]; simp)
  unfold Conn.flushingRest
  split
  · split
    · exact pop_sens h rfl hst h.fault rfl hdv (h.resp (by simp)) hruns hset
    · rename_i d hd
      refine pop_sens h rfl hst h.fault rfl (fun _ => rfl) (h.resp (by simp)) hruns ?_
      refine hset.congr ⟨rfl, rfl, rfl, ?_, rfl, rfl, rfl, rfl, rfl, rfl, rfl, rfl, rfl, rfl⟩
      simp [Conn.inp, unread, hd]
  · exact pop_sens h rfl hst h.fault rfl hdv (h.resp (by simp)) hruns hset

theorem settled_not_ended {b : Bool} {c : Conn} {ph : Phase} (h : Settled b c ph) : ∀ r hd, ph ≠ .ended r hd := by
  unfold Settled at h
  rintro r hd rfl
  split at h
  · simp at h
  · simp at h
  · obtain ⟨_, _, _, _, h, _⟩ := h; have := h.phase; simp at this
  · simp at h
  · obtain ⟨_, _, h, _⟩ := h; simp at h
  · obtain ⟨h, _⟩ := h; split at h <;> simp at h
  · simp at h
  · simp at h

theorem settled_closed_iff {b : Bool} {c : Conn} {ph : Phase} (h : Settled b c ph) (hc : ph = .closed) : c.st = .closed := by
  subst hc
  unfold Settled at h
  split at h
  · simp at h
  · simp at h
  · obtain ⟨_, _, _, _, h, _⟩ := h; have := h.phase; simp at this
  · simp at h
  · obtain ⟨_, _, h, _⟩ := h; simp at h
  · obtain ⟨h, _⟩ := h; split at h <;> simp at h
  · simp at h
  · assumption

theorem step_toClosed {c : Conn} {rest : List Instr} (forced : Bool) (h : Core lo c (.closed forced :: rest)) :
    Core lo (c.toClosed forced).1 ((c.toClosed forced).2 ++ rest) := by
  obtain ⟨ph, hruns, hdata⟩ := h.data
  have hset : Settled true c ph ∧ c.st ≠ .completed ∧ (forced = false → c.st ≠ .closed → c.st = .flushing ∧ ∃ d, c.dev = some d ∧ d.pending = 0) := by
    cases forced with
    | true => exact ⟨hdata.2, hdata.1, by simp⟩
    | false =>
      obtain ⟨h1, h2, h3⟩ := hdata
      refine ⟨h2, by rcases h1 with e | e <;> rw [e] <;> simp, fun _ hc => ?_⟩
      have : c.st = .flushing := by rcases h1 with e | e; exact e; exact absurd e hc
      exact ⟨this, h3 this⟩
  obtain ⟨hset, hnc, hpend⟩ := hset
  unfold Conn.toClosed
  split
  · exact core_skip h rfl (by simp) (by simp) hruns hset
  · rename_i hcl
    refine core_push h h.fault (by simp [Instr.frame]) ?_ (fun _ e => absurd rfl e) (fun _ => h.resp (by simp)) (ph := .closed) ?_ ?_
    · have := sens_keep h rfl (by simp) (some .env) (by simp)
      show sensOk .closed c.viewsValid _ _
      simp only [sensOk, List.cons_append, List.head?_cons, Option.some.injEq, reduceCtorEq, ↓reduceIte] at this ⊢
      have hmem : ∀ i ∈ rest.filter Instr.sens, i = .drainRest ∨ i = .flushingRest ∨ i = .closedRest := by
        cases hst : c.st <;> rw [hst] at this <;> simp only at this
        all_goals first
          | exact absurd hst hnc
          | (rw [this]; simp)
          | exact this
          | exact fun i hi => (this i hi).imp_right .inl
      intro i hi
      simp only [Instr.sens, List.filter_cons, List.filter_nil, Bool.false_eq_true, ↓reduceIte, List.mem_append,
        List.mem_cons, List.not_mem_nil, or_false] at hi
      rcases hi with hi | hi
      · exact .inr (.inr hi)
      · exact hmem i hi
    · refine .step _ _ _ _ hruns ?_
      cases forced with
      | true => exact .forced _ _ (fun e => hcl (settled_closed_iff hset e)) (settled_not_ended hset)
      | false =>
        obtain ⟨h1, d, h2, h3⟩ := hpend rfl hcl
        rw [h2, ((settled_flushing h1).1 hset).1]
        show Next lo _ (.closed false d.pending) _
        rw [h3]
        exact .drained
    · refine data_env ?_
      refine (settled_closed rfl).2 ⟨rfl, weak_neutral (log := c.log) (settled_weak hset) trivial⟩

theorem step_closedRest {c : Conn} {rest : List Instr} (h : Core lo c (.closedRest :: rest)) :
    Core lo c.closedRest.1 (c.closedRest.2 ++ rest) := by
  obtain ⟨ph, hruns, hset⟩ := h.data
  have hset : Settled true c ph := hset
  have hst : c.st = .closed := by
    have hs := sens_top h rfl
    unfold sensOk at hs
    cases hst : c.st <;> rw [hst] at hs <;> simp at hs ⊢
    · split at hs <;> simp at hs
  refine pop_sens h rfl (.inr hst) h.fault rfl (fun e => by rw [hst] at e; cases e) (h.resp (by simp)) hruns ?_
  exact (settled_closed (by exact hst)).2 ((settled_closed hst).1 hset)

theorem write_some {c : Conn} {d : Dev} (hd : c.dev = some d) (e : Ev) : c.write e =
    { c with dev := some { d with pending := d.pending + e.wire.length }, log := c.log ++ [e] } := by
  unfold Conn.write; simp only [hd]

theorem step_errorResponse {c : Conn} {rest : List Instr} (code : Int) (h : Core lo c (.errorResponse code :: rest)) :
    Core lo (c.errorResponse code).1 ((c.errorResponse code).2 ++ rest) := by
  obtain ⟨ph, hruns, hst, rfl, reqs, rest', hh, hr⟩ := h.data
  obtain ⟨d, hdev⟩ := Option.isSome_iff_exists.1
    (h.dev (by rcases hst with e | e <;> rw [e] <;> simp) (by rcases hst with e | e <;> rw [e] <;> simp))
  have hsens := sens_rest_free h rfl (by rcases hst with e | e <;> rw [e] <;> rfl)
  unfold Conn.errorResponse
  rw [if_neg (by rcases hst with e | e <;> rw [e] <;> simp), write_some hdev]
  refine core_push h h.fault (by simp) ?_ (fun _ _ => rfl) (fun _ => h.resp (by simp)) (ph := .flushing) ?_ ?_
  · rw [hsens]; simp [sensOk, Instr.sens, List.filter_cons]
  · exact .step _ _ _ _ hruns (.error code)
  · exact ⟨by rcases hst with e | e; exact .inl e; exact .inr (.inl e), rfl, hh.errorEv code hr⟩

end Pillow
