import Verif.Lemmas.ConnInv
set_option linter.unusedSimpArgs false
set_option linter.unusedVariables false
/-!
# Every instruction preserves the invariant
-/
namespace Pillow
open Spec

variable {lo : Bool}

theorem settled_strengthen {c : Conn} {ph : Phase} (h : Settled false c ph) (h1 : c.st ≠ .receivingHeaders)
    (h2 : c.st ≠ .receivingContent) : Settled true c ph := by
  unfold Settled at *
  cases hst : c.st <;> simp_all

theorem settled_recvH {strict : Bool} {c : Conn} {ph : Phase} (h : c.st = .receivingHeaders) :
    Settled strict c ph ↔ (ph = .recv false ∧ RecvH c strict) := by unfold Settled; rw [h]

theorem settled_recvC {strict : Bool} {c : Conn} {ph : Phase} (h : c.st = .receivingContent) :
    Settled strict c ph ↔ ∃ reqs h tail n, RecvC c ph reqs h tail n ∧ 0 < n ∧ (strict = true → tail.length < n) := by
  unfold Settled; rw [h]

theorem settled_sendH {strict : Bool} {c : Conn} {ph : Phase} (h : c.st = .sendingHeaders) :
    Settled strict c ph ↔ (ph = .busy c.req ∧ Busy c ∧ c.http11 = (c.req.version == b!"HTTP/1.1") ∧
      c.chunked = false ∧ c.respLen = -1 ∧ c.viewsValid = true ∧ c.sent = 0) := by
  unfold Settled; rw [h]

theorem settled_sendC {strict : Bool} {c : Conn} {ph : Phase} (h : c.st = .sendingContent) :
    Settled strict c ph ↔ ∃ h n, ph = .sending c.req h n ∧ Resp c h n ∧ Busy c ∧ h.len ≠ 0 ∧ c.req.method ≠ b!"HEAD" ∧
      (0 < h.len → (n : Int) < h.len) ∧ c.viewsValid = true := by
  unfold Settled; rw [h]

theorem settled_completed {strict : Bool} {c : Conn} {ph : Phase} (h : c.st = .completed) :
    Settled strict c ph ↔ (ph = (if c.keepAlive then .recv false else .flushing) ∧
      (c.keepAlive = true → 0 ≤ c.respLen ∨ c.chunked = true) ∧
      (if c.viewsValid then Busy c else Dropped c ∧ c.keepAlive = true)) := by
  unfold Settled; rw [h]

theorem settled_flushing {strict : Bool} {c : Conn} {ph : Phase} (h : c.st = .flushing) :
    Settled strict c ph ↔ (ph = .flushing ∧ Weak c.log) := by unfold Settled; rw [h]

theorem settled_closed {strict : Bool} {c : Conn} {ph : Phase} (h : c.st = .closed) :
    Settled strict c ph ↔ (ph = .closed ∧ Weak c.log) := by unfold Settled; rw [h]

/-- States without continuations that change the state. -/
def CState.free : CState → Bool
  | .completed | .flushing | .closed => false
  | _ => true

theorem sens_free {st : CState} {vv : Bool} {top : Option Instr} {l : List Instr} (h : st.free = true) :
    sensOk st vv top l ↔ l = [] := by
  unfold sensOk
  split
  · rfl
  · cases st <;> simp_all [CState.free]

/-! ### `processInput` -/

theorem step_processInput {c : Conn} {rest : List Instr} (h : Core lo c (.processInput :: rest)) :
    Core lo c.processInput.1 (c.processInput.2 ++ rest) := by
  obtain ⟨ph, hruns, hset⟩ := h.data
  simp only [List.head?_cons, Data] at hset
  have hfr := h.frames
  rw [List.tail_cons] at hfr
  by_cases hst : c.st ≠ .receivingHeaders ∧ c.st ≠ .receivingContent
  · have : c.processInput = (c, []) := by unfold Conn.processInput; rw [if_pos hst]
    rw [this]
    exact core_skip h rfl (by simp) (by simp) hruns (settled_strengthen hset hst.1 hst.2)
  · have hd : c.dev.isSome = true := h.dev (by rintro e; rw [e] at hst; simp at hst) (by rintro e; rw [e] at hst; simp at hst)
    obtain ⟨d, hd⟩ := Option.isSome_iff_exists.1 hd
    have hfree : c.st.free = true := by
      cases hs : c.st <;> simp_all [CState.free]
    have hsens : rest.filter Instr.sens = [] := by
      have := (sens_free hfree).1 h.sens
      simpa [List.filter_cons, Instr.sens] using this
    have hresp : c.respBuf = [] := h.resp (by simp)
    have hinp : c.inp = d.inp := by simp [Conn.inp, unread, hd]
    have hinp' : (c.fill d).inp = [] := by simp [Conn.inp, unread, Conn.fill]
    by_cases hH : c.st = .receivingHeaders
    · -- headers
      obtain ⟨rfl, reqs, s0, n, hh, hn, hlive, hp, hrefs, hclen, -⟩ := (settled_recvH hH).1 hset
      have hbuf : (c.fill d).buf = c.buf ++ c.inp := by simp [Conn.fill, hinp]
      have htake : (c.buf ++ c.inp).take n = c.buf.take n := List.take_append_of_le_length hn
      have hpar : (c.fill d).parse.parser = s0.init.execute (c.buf ++ c.inp) 0 := by
        show (if (c.fill d).buf = [] then c.parser else c.parser.execute (c.fill d).buf c.parser.nread) = _
        rw [hbuf, hp]
        split
        · rename_i he
          have : c.buf = [] := (List.append_eq_nil_iff.1 he).1
          rw [he, this]; simp
        · rw [← htake]
          exact resume_take s0 _ n (by rw [htake]; exact hlive)
      have hrf : (c.fill d).parse.refs = (c.fill d).parse.parser.fields := by
        show c.refs ++ (c.fill d).parse.parser.fields.drop c.parser.fields.length = _
        have hpre : c.parser.fields <+: (c.fill d).parse.parser.fields := by
          show c.parser.fields <+: (if (c.fill d).buf = [] then c.parser else _).fields
          split
          · exact List.prefix_refl _
          · exact execute_fields _ _ _
        rw [hrefs]
        obtain ⟨t, ht⟩ := hpre
        rw [← ht]; simp
      have hlog : (c.fill d).parse.log = c.log := rfl
      have hst' : (c.fill d).parse.st = .receivingHeaders := hH
      have hbuf' : (c.fill d).parse.buf = c.buf ++ c.inp := hbuf
      have hin2 : (c.fill d).parse.inp = [] := hinp'
      have hh' : Hist (c.fill d).parse.log reqs ((c.fill d).parse.buf ++ (c.fill d).parse.inp) := by
        rw [hlog, hbuf', hin2, List.append_nil]; exact hh
      have hPI : c.processInput = (if (c.fill d).parse.parser.nread > maxHeaderLength ∨ (c.fill d).parse.parser.hasError then
          ((c.fill d).parse, [.errorResponse 400])
        else if (c.fill d).parse.parser.isFinished then ((c.fill d).parse, [.recvContent]) else ((c.fill d).parse, [])) := by
        unfold Conn.processInput
        rw [if_neg hst, hd]
        simp only
        rw [if_pos (show (c.fill d).st = .receivingHeaders from hH)]
      -- the three outcomes
      have mk : ∀ (push : List Instr), (∀ i ∈ push.tail ++ rest, i.frame = true) → push.filter Instr.sens = [] →
          (push ++ rest).head? ≠ some .flushing →
          Data (c.fill d).parse (.recv false) (push ++ rest).head? → Core lo (c.fill d).parse (push ++ rest) := by
        intro push hpf hps htop hdata
        refine ⟨h.fault, ?_, ?_, ?_, fun _ => hresp, ⟨_, hruns, hdata⟩⟩
        · cases push with
          | nil => exact fun i hi => hfr i (List.mem_of_mem_tail hi)
          | cons a push => simpa using hpf
        · rw [sens_free (by rw [hst']; rfl), List.filter_append, hps, hsens]; rfl
        · intro _ _; rfl
      have hmax : maxHeaderLength = headLimit + 1 := rfl
      have errCase : ErrorReason 400 (c.buf ++ c.inp) → Core lo (c.fill d).parse ([.errorResponse 400] ++ rest) := by
        intro hr
        refine mk [.errorResponse 400] (by simpa using hfr) rfl (by simp) ?_
        exact ⟨.inl hst', rfl, reqs, _, hh', by rw [hbuf', hin2, List.append_nil]; exact hr⟩
      rcases parse_cases s0 (c.buf ++ c.inp) with ⟨h0, hno⟩ | ⟨hd', tail, hw, hbe, hip, hnr⟩ | ⟨hlv, hc0, hc58, hnr⟩
      · have : c.processInput = ((c.fill d).parse, [.errorResponse 400]) := by
          rw [hPI, if_pos]; right; rw [hpar]; simp [Parser.hasError, h0]
        rw [this]
        exact errCase (.inl ⟨rfl, .inl hno⟩)
      · by_cases hlong : (c.fill d).parse.parser.nread > maxHeaderLength
        · have : c.processInput = ((c.fill d).parse, [.errorResponse 400]) := by rw [hPI, if_pos (.inl hlong)]
          rw [this]
          refine errCase (.inl ⟨rfl, .inr ⟨hd', hw, ?_, .inl ⟨tail, hbe.symm⟩⟩⟩)
          rw [hpar, hnr, hmax] at hlong; omega
        · have : c.processInput = ((c.fill d).parse, [.recvContent]) := by
            rw [hPI, if_neg, if_pos]
            · rw [hpar]; simp [Parser.isFinished, hip.cs]
            · rintro (e | e)
              · exact hlong e
              · rw [hpar] at e; simp [Parser.hasError, hip.cs] at e
          rw [this]
          refine mk [.recvContent] (by simpa using hfr) rfl (by simp) ?_
          refine ⟨hst', rfl, hclen, reqs, hd', tail, ?_⟩
          have hpeq : IsHeadParser hd' (c.fill d).parse.parser := by rw [hpar]; exact hip
          refine ⟨?_, hw, ?_, hpeq, ?_, hrf⟩
          · rw [hlog, hin2, List.append_nil, ← hbe]; exact hh
          · rw [hpar, hnr, hmax] at hlong; omega
          · rw [hbuf', hbe]; exact HeadBuf.raw hpeq tail
      · by_cases hlong : (c.fill d).parse.parser.nread > maxHeaderLength
        · have : c.processInput = ((c.fill d).parse, [.errorResponse 400]) := by rw [hPI, if_pos (.inl hlong)]
          rw [this]
          obtain ⟨hd', hw, hpre⟩ := live_prefix s0 _ hlv
          rw [hpar, hnr, hmax] at hlong
          refine errCase (.inl ⟨rfl, .inr ⟨hd', hw, ?_, .inr ⟨hpre, hlong⟩⟩⟩)
          have := hpre.length_le; omega
        · have : c.processInput = ((c.fill d).parse, []) := by
            rw [hPI, if_neg, if_neg]
            · rw [hpar]; simp [Parser.isFinished, hc58]
            · rintro (e | e)
              · exact hlong e
              · rw [hpar] at e; simp [Parser.hasError, hc0] at e
          rw [this]
          refine mk [] (by simpa using hfr) rfl (head_frame hfr).1 ?_
          rw [List.nil_append, data_frame hfr, settled_recvH hst']
          refine ⟨rfl, reqs, s0, (c.buf ++ c.inp).length, hh', ?_, ?_, ?_, hrf, hclen, fun _ => ?_⟩
          · rw [hbuf']; exact Nat.le_refl _
          · rw [hbuf', List.take_length]; exact hlv
          · rw [hpar, hbuf', List.take_length]
          · rw [hbuf']; rw [hpar, hnr, hmax] at hlong; exact ⟨rfl, by omega⟩
    · -- content
      have hC : c.st = .receivingContent := by
        apply Classical.byContradiction; intro hC; exact hst ⟨hH, hC⟩
      obtain ⟨reqs, hd', tail, n, hrc, hn0, -⟩ := (settled_recvC hC).1 hset
      have hbuf : (c.fill d).buf = c.buf ++ c.inp := by simp [Conn.fill, hinp]
      have hPI : c.processInput = (if ((c.fill d).buf.length : Int) - (c.fill d).parser.bodyStart ≥ (c.fill d).clen then
          (c.fill d, [.sendHeaders]) else (c.fill d, [])) := by
        unfold Conn.processInput
        rw [if_neg hst, hd]
        simp only
        rw [if_neg (show ¬ (c.fill d).st = .receivingHeaders from hH)]
      have hrc' : RecvC (c.fill d) ph reqs hd' (tail ++ c.inp) n := by
        refine ⟨⟨?_, hrc.head.wf, hrc.head.short, hrc.head.parser, ?_, hrc.head.refs⟩, hrc.announced, hrc.small, hrc.clen, hrc.phase⟩
        · rw [hinp', List.append_nil, ← List.append_assoc]; exact hrc.head.hist
        · rw [hbuf]; exact hrc.head.buf.append hrc.head.parser c.inp
      have hlen : ((c.fill d).buf.length : Int) - (c.fill d).parser.bodyStart = (tail ++ c.inp).length := by
        have h1 := hrc'.head.buf.len
        have h2 := hrc'.head.parser.bodyStart
        rw [h1, h2]; simp; omega
      rw [hlen, hrc'.clen] at hPI
      have mk : ∀ (push : List Instr), (∀ i ∈ push.tail ++ rest, i.frame = true) → push.filter Instr.sens = [] →
          Data (c.fill d) ph (push ++ rest).head? → Core lo (c.fill d) (push ++ rest) := by
        intro push hpf hps hdata
        refine ⟨h.fault, ?_, ?_, ?_, fun _ => hresp, ⟨_, hruns, hdata⟩⟩
        · cases push with
          | nil => exact fun i hi => hfr i (List.mem_of_mem_tail hi)
          | cons a push => simpa using hpf
        · rw [sens_free (by rw [show (c.fill d).st = .receivingContent from hC]; rfl), List.filter_append, hps, hsens]; rfl
        · intro _ _; rfl
      by_cases hge : ((tail ++ c.inp).length : Int) ≥ n
      · rw [hPI, if_pos hge]
        exact mk [.sendHeaders] (by simpa using hfr) rfl ⟨hC, reqs, hd', _, n, hrc', by omega⟩
      · rw [hPI, if_neg hge]
        refine mk [] (by simpa using hfr) rfl ?_
        rw [List.nil_append, data_frame hfr, settled_recvC (show (c.fill d).st = .receivingContent from hC)]
        exact ⟨reqs, hd', _, n, hrc', hn0, fun _ => by omega⟩

/-! ### congruence -/

/-- The fields the invariant looks at. -/
structure Same (c c' : Conn) : Prop where
  st : c'.st = c.st
  log : c'.log = c.log
  buf : c'.buf = c.buf
  inp : c'.inp = c.inp
  parser : c'.parser = c.parser
  refs : c'.refs = c.refs
  clen : c'.clen = c.clen
  req : c'.req = c.req
  http11 : c'.http11 = c.http11
  chunked : c'.chunked = c.chunked
  respLen : c'.respLen = c.respLen
  viewsValid : c'.viewsValid = c.viewsValid
  sent : c'.sent = c.sent
  keepAlive : c'.keepAlive = c.keepAlive

theorem Busy.congr {c c' : Conn} (h : Busy c) (e1 : c'.log = c.log) (e2 : c'.buf = c.buf) (e3 : c'.inp = c.inp)
    (e4 : c'.parser = c.parser) (e5 : c'.clen = c.clen) : Busy c' := by
  unfold Busy at *; rw [e1, e2, e3, e4, e5]; exact h

theorem Dropped.congr {c c' : Conn} (h : Dropped c) (e1 : c'.log = c.log) (e2 : c'.buf = c.buf) (e3 : c'.inp = c.inp)
    (e4 : c'.refs = c.refs) : Dropped c' := by
  unfold Dropped at *; rw [e1, e2, e3, e4]; exact h

theorem HeadIn.congr {c c' : Conn} {reqs h tail} (hh : HeadIn c reqs h tail) (e1 : c'.log = c.log) (e2 : c'.buf = c.buf)
    (e3 : c'.inp = c.inp) (e4 : c'.parser = c.parser) (e5 : c'.refs = c.refs) : HeadIn c' reqs h tail :=
  ⟨by rw [e1, e3]; exact hh.hist, hh.wf, hh.short, by rw [e4]; exact hh.parser, by rw [e4, e2]; exact hh.buf,
    by rw [e4, e5]; exact hh.refs⟩

theorem RecvC.congr {c c' : Conn} {ph reqs h tail n} (hh : RecvC c ph reqs h tail n) (e1 : c'.log = c.log)
    (e2 : c'.buf = c.buf) (e3 : c'.inp = c.inp) (e4 : c'.parser = c.parser) (e5 : c'.refs = c.refs) (e6 : c'.clen = c.clen) :
    RecvC c' ph reqs h tail n :=
  ⟨hh.head.congr e1 e2 e3 e4 e5, hh.announced, hh.small, by rw [e6]; exact hh.clen, hh.phase⟩

theorem Resp.congr {c c' : Conn} {h n} (hh : Resp c h n) (e1 : c'.respLen = c.respLen) (e2 : c'.chunked = c.chunked)
    (e3 : c'.keepAlive = c.keepAlive) (e4 : c'.sent = c.sent) : Resp c' h n :=
  ⟨by rw [e1]; exact hh.len, by rw [e2]; exact hh.chunked, by rw [e3]; exact hh.keep, by rw [e4]; exact hh.sent,
    hh.delim, hh.chunkLen⟩

theorem Settled.congr {c c' : Conn} {b ph} (h : Settled b c ph) (e : Same c c') : Settled b c' ph := by
  unfold Settled at *
  rw [e.st]
  cases hst : c.st <;> rw [hst] at h <;> simp only at h ⊢
  · rw [e.log]; exact h
  · obtain ⟨h1, h2⟩ := h
    refine ⟨h1, ?_⟩
    unfold RecvH at *
    rw [e.log, e.buf, e.inp, e.parser, e.refs, e.clen]; exact h2
  · obtain ⟨reqs, hd, tail, n, h1, h2⟩ := h
    exact ⟨reqs, hd, tail, n, h1.congr e.log e.buf e.inp e.parser e.refs e.clen, h2⟩
  · obtain ⟨h1, h2, h3⟩ := h
    refine ⟨by rw [e.req]; exact h1, h2.congr e.log e.buf e.inp e.parser e.clen, ?_⟩
    rw [e.http11, e.req, e.chunked, e.respLen, e.viewsValid, e.sent]; exact h3
  · obtain ⟨hd, n, h1, h2, h3, h4⟩ := h
    refine ⟨hd, n, by rw [e.req]; exact h1, h2.congr e.respLen e.chunked e.keepAlive e.sent,
      h3.congr e.log e.buf e.inp e.parser e.clen, ?_⟩
    rw [e.req, e.viewsValid]; exact h4
  · obtain ⟨h1, h2, h3⟩ := h
    rw [e.keepAlive, e.respLen, e.chunked, e.viewsValid]
    refine ⟨h1, h2, ?_⟩
    split at h3
    · rename_i hv; rw [if_pos hv]; exact h3.congr e.log e.buf e.inp e.parser e.clen
    · rename_i hv; rw [if_neg hv]; exact ⟨h3.1.congr e.log e.buf e.inp e.refs, h3.2⟩
  · rw [e.log]; exact h
  · rw [e.log]; exact h

/-- General form: the instruction `i` is replaced by `push`. -/
theorem core_push {c c' : Conn} {i : Instr} {rest push : List Instr} {ph : Phase} (h : Core lo c (i :: rest))
    (hf : c'.fault = none) (hpf : ∀ j ∈ push.tail, j.frame = true)
    (hs : sensOk c'.st c'.viewsValid (push ++ rest).head? (push.filter Instr.sens ++ rest.filter Instr.sens))
    (hd : c'.st ≠ .uninitialized → c'.st ≠ .closed → c'.dev.isSome = true)
    (hresp : (push ++ rest).head? ≠ some .sendContent → c'.respBuf = [])
    (hr : Runs lo c'.log ph) (hdata : Data c' ph (push ++ rest).head?) : Core lo c' (push ++ rest) where
  fault := hf
  frames := by
    have hfr := h.frames
    rw [List.tail_cons] at hfr
    cases push with
    | nil => exact fun i hi => hfr i (List.mem_of_mem_tail hi)
    | cons a push =>
      intro j hj
      simp only [List.cons_append, List.tail_cons, List.mem_append] at hj hpf
      rcases hj with hj | hj
      · exact hpf j hj
      · exact hfr j hj
  sens := by rw [List.filter_append]; exact hs
  dev := hd
  resp := hresp
  data := ⟨ph, hr, hdata⟩

theorem Core.rest_frames {c : Conn} {i : Instr} {rest : List Instr} (h : Core lo c (i :: rest)) : ∀ j ∈ rest, j.frame = true :=
  h.frames

/-- Replacing a top that is neither a sensitive continuation nor `flushing` by another such, keeping the state. -/
theorem sens_keep {c : Conn} {i : Instr} {rest : List Instr} (h : Core lo c (i :: rest)) (hi : i.sens = false)
    (hi' : i ≠ .flushing) (top : Option Instr) (ht : top ≠ some .flushing) :
    sensOk c.st c.viewsValid top (rest.filter Instr.sens) := by
  have := h.sens
  rw [List.head?_cons, List.filter_cons, if_neg (by simp [hi])] at this
  unfold sensOk at *
  rw [if_neg ht]
  rwa [if_neg (by simpa using hi')] at this

theorem sens_rest_free {c : Conn} {i : Instr} {rest : List Instr} (h : Core lo c (i :: rest)) (hi : i.sens = false)
    (hst : c.st.free = true) : rest.filter Instr.sens = [] := by
  have := (sens_free hst).1 h.sens
  simpa [List.filter_cons, hi] using this

/-! ### `transitionToReceivingContent` -/

theorem announced_spec {c : Conn} {h : ReqHead} {reqs : List (ReqHead × Bytes)} {tail : Bytes} (hh : HeadIn c reqs h tail)
    (hc : c.clen = 0) :
    ({ c with st := CState.receivingContent }.setup).announced (contentLengthIndex c.buf c.refs) =
      match announcedLength h with
      | some n => (n, true)
      | none => (0, false) := by
  have hs := clIndex_spec hh.parser hh.buf
  rw [← hh.refs] at hs
  have hv1 := hh.buf.view hh.parser
  have hv2 := (hh.buf.setup hh.parser).view hh.parser
  rw [← hh.refs] at hv1 hv2
  unfold Conn.announced
  have e : viewHeaders ({ c with st := CState.receivingContent }.setup).buf ({ c with st := CState.receivingContent }.setup).refs
      = viewHeaders c.buf c.refs := hv2.trans hv1.symm
  rw [e]
  have hc' : ({ c with st := CState.receivingContent }.setup).clen = 0 := hc
  rw [hc']
  cases hi : contentLengthIndex c.buf c.refs with
  | none => rw [hi] at hs; simp only at hs; rw [hs]
  | some i =>
    rw [hi] at hs; simp only at hs ⊢
    rw [hs]
    cases qtToInt ((viewHeaders c.buf c.refs).getD i ⟨[], []⟩).value <;> rfl

theorem step_recvContent {c : Conn} {rest : List Instr} (h : Core lo c (.recvContent :: rest)) :
    Core lo c.recvContent.1 (c.recvContent.2 ++ rest) := by
  obtain ⟨ph, hruns, hst, rfl, hclen, reqs, hd, tail, hh⟩ := h.data
  have hsens := sens_rest_free h rfl (by rw [hst]; rfl)
  obtain ⟨d, hdev⟩ := Option.isSome_iff_exists.1 (h.dev (by rw [hst]; simp) (by rw [hst]; simp))
  have hann := announced_spec hh hclen
  generalize hc1 : ({ c with st := CState.receivingContent }.setup) = c1 at hann
  have hst1 : c1.st = .receivingContent := by rw [← hc1]; rfl
  have hlog1 : c1.log = c.log := by rw [← hc1]; rfl
  have hh1 : HeadIn c1 reqs hd tail := by
    rw [← hc1]
    exact ⟨hh.hist, hh.wf, hh.short, hh.parser, by
      show HeadBuf hd c.parser tail (setupHeaders c.buf c.refs)
      rw [hh.refs]; exact hh.buf.setup hh.parser, hh.refs⟩
  have hf1 : c1.fault = none := by rw [← hc1]; exact h.fault
  have hd1 : c1.dev = some d := by rw [← hc1]; exact hdev
  have hr1 : c1.respBuf = [] := by rw [← hc1]; exact h.resp (by simp)
  have hrc : c.recvContent = (if (c1.announced (contentLengthIndex c.buf c.refs)).1 < 0 then
        ({ c1 with clen := (c1.announced (contentLengthIndex c.buf c.refs)).1 }, [.errorResponse 400])
      else if (c1.announced (contentLengthIndex c.buf c.refs)).1 > maxContentLength ∨
          (c1.announced (contentLengthIndex c.buf c.refs)).2 = false then
        ({ c1 with clen := (c1.announced (contentLengthIndex c.buf c.refs)).1 }, [.errorResponse 413])
      else if (c1.announced (contentLengthIndex c.buf c.refs)).1 > 0 then
        ({ (if asciiEqualsCILower (getFieldValueTok (viewHeaders c1.buf c1.refs) b!"expect") b!"100-continue"
            then { c1 with clen := (c1.announced (contentLengthIndex c.buf c.refs)).1 }.write .interim
            else { c1 with clen := (c1.announced (contentLengthIndex c.buf c.refs)).1 }) with
            hdrN := (if asciiEqualsCILower (getFieldValueTok (viewHeaders c1.buf c1.refs) b!"expect") b!"100-continue"
            then { c1 with clen := (c1.announced (contentLengthIndex c.buf c.refs)).1 }.write .interim
            else { c1 with clen := (c1.announced (contentLengthIndex c.buf c.refs)).1 }).hdrN - 1,
            hdrValid := false }, [.processInput])
      else ({ c1 with clen := (c1.announced (contentLengthIndex c.buf c.refs)).1 }, [.sendHeaders])) := by
    unfold Conn.recvContent
    rw [if_neg (by rw [hst]; simp)]
    simp only [hc1]
  rw [hann] at hrc
  have hmax : maxContentLength = contentLimit := rfl
  rw [hmax] at hrc
  have hpre : hd.render <+: hd.render ++ tail ++ c.inp := by rw [List.append_assoc]; exact List.prefix_append _ _
  have errCase : ∀ (code n : Int), ErrorReason code (hd.render ++ tail ++ c.inp) →
      Core lo { c1 with clen := n } ([.errorResponse code] ++ rest) := by
    intro code n hr
    refine core_push h hf1 (by simp) ?_ ?_ (fun _ => hr1) (ph := .recv false) (by rw [show ({ c1 with clen := n } : Conn).log = c.log from hlog1]; exact hruns) ?_
    · rw [sens_free (by show c1.st.free = true; rw [hst1]; rfl)]; simp [Instr.sens, hsens]
    · intro _ _; show c1.dev.isSome = true; rw [hd1]; rfl
    · refine ⟨.inr hst1, rfl, reqs, _, ?_, hr⟩
      show Hist c1.log _ _
      rw [hlog1]; exact hh.hist
  cases hal : announcedLength hd with
  | none =>
    rw [hal] at hrc
    simp only [Int.lt_irrefl, ↓reduceIte, or_true] at hrc
    rw [hrc]
    exact errCase 413 0 (.inr ⟨hd, hh.wf, hh.short, hpre, .inr ⟨rfl, .inl hal⟩⟩)
  | some n =>
    rw [hal] at hrc
    simp only at hrc
    by_cases hneg : n < 0
    · rw [hrc, if_pos hneg]
      exact errCase 400 n (.inr ⟨hd, hh.wf, hh.short, hpre, .inl ⟨rfl, n, hal, hneg⟩⟩)
    · rw [if_neg hneg] at hrc
      by_cases hbig : n > contentLimit
      · rw [hrc, if_pos (.inl hbig)]
        exact errCase 413 n (.inr ⟨hd, hh.wf, hh.short, hpre, .inr ⟨rfl, .inr ⟨n, hal, hbig⟩⟩⟩)
      · rw [if_neg (by simp; omega)] at hrc
        obtain ⟨m, rfl⟩ := Int.eq_ofNat_of_zero_le (show 0 ≤ n by omega)
        have hv : viewHeaders c1.buf c1.refs = hd.headers.map fun l => ⟨l.name, l.value⟩ := by
          rw [hh1.refs]; exact hh1.buf.view hh1.parser
        by_cases hpos : (m : Int) > 0
        · rw [if_pos hpos, hv] at hrc
          have hexp : asciiEqualsCILower (getFieldValueTok (hd.headers.map fun l => ⟨l.name, l.value⟩) b!"expect") b!"100-continue"
              = expects hd := rfl
          rw [hexp] at hrc
          have hm : decide (0 < m) = true := by simp; omega
          by_cases hex : expects hd = true
          · rw [hrc]
            simp only [hex, ↓reduceIte]
            have hw : ({ c1 with clen := (m : Int) }.write .interim) = { c1 with clen := (m : Int), dev := some { d with pending := d.pending + continueBytes.length }, log := c1.log ++ [.interim] } := by
              unfold Conn.write; simp only [hd1]; rfl
            rw [hw]
            refine core_push h hf1 (by simp) ?_ ?_ (fun _ => hr1) (ph := .recv true) ?_ ?_
            · rw [sens_free (by show c1.st.free = true; rw [hst1]; rfl)]; simp [Instr.sens, hsens]
            · intro _ _; rfl
            · show Runs lo (c1.log ++ [.interim]) _
              rw [hlog1]; exact .step _ _ _ _ hruns .interim
            · show Settled false _ _
              refine (settled_recvC (by exact hst1)).2 ⟨reqs, hd, tail, m, ⟨⟨?_, hh1.wf, hh1.short, hh1.parser, hh1.buf, hh1.refs⟩, hal, by omega, rfl, by rw [hm, hex]; rfl⟩, by omega, by simp⟩
              show Hist (c1.log ++ [.interim]) _ _
              rw [hlog1]
              have : ∀ inp, inp = c.inp → Hist (c.log ++ [.interim]) reqs (hd.render ++ tail ++ inp) := by
                rintro _ rfl; exact hh.hist.neutral trivial
              apply this
              simp [Conn.inp, unread, hdev]
          · rw [hrc]
            simp only [hex, Bool.false_eq_true, ↓reduceIte]
            refine core_push h hf1 (by simp) ?_ ?_ (fun _ => hr1) (ph := .recv false) ?_ ?_
            · rw [sens_free (by show c1.st.free = true; rw [hst1]; rfl)]; simp [Instr.sens, hsens]
            · intro _ _; show c1.dev.isSome = true; rw [hd1]; rfl
            · show Runs lo c1.log _
              rw [hlog1]; exact hruns
            · show Settled false _ _
              refine (settled_recvC (by exact hst1)).2 ⟨reqs, hd, tail, m, ⟨hh1.congr rfl rfl rfl rfl rfl, hal, by omega, rfl, by simp [hex]⟩, by omega, by simp⟩
        · rw [if_neg hpos] at hrc
          rw [hrc]
          refine core_push h hf1 (by simp) ?_ ?_ (fun _ => hr1) (ph := .recv false) ?_ ?_
          · rw [sens_free (by show c1.st.free = true; rw [hst1]; rfl)]; simp [Instr.sens, hsens]
          · intro _ _; show c1.dev.isSome = true; rw [hd1]; rfl
          · show Runs lo c1.log _
            rw [hlog1]; exact hruns
          · refine ⟨hst1, reqs, hd, tail, m, ⟨hh1.congr rfl rfl rfl rfl rfl, hal, by omega, rfl, ?_⟩, by omega⟩
            have : decide (0 < m) = false := by simp; omega
            rw [this]; rfl

end Pillow
