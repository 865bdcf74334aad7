import Verif.Lemmas.ConnStep2
set_option linter.unusedSimpArgs false
set_option linter.unusedVariables false
/-!
# Writing responses, foreign moves, and the invariant of all gentle runs
-/
namespace Pillow
open Spec

variable {lo : Bool}

/-! ### the response head -/

/-- The decisions of `buildHead`, without the bytes. -/
theorem buildHead_facts {buf0 : Bytes} {http11 : Bool} {r : ReqView} {lenIn : Int} {status : Int} {hs : Headers}
    {h : RespHead} (e : buildHead buf0 http11 r lenIn false status hs = some h) :
    (h.keepAlive = true → 0 ≤ h.len ∨ h.chunked = true) ∧ (h.chunked = true → h.len = -1) := by
  unfold buildHead at e
  simp only at e
  generalize hs.foldl scanHeader { out := buf0 ++ statusLine r status, len := lenIn } = sc at e
  cases hl : lengthLine sc.len with
  | none => rw [hl] at e; cases e
  | some cl =>
    rw [hl, Option.map_some, Option.some.injEq] at e
    subst e
    refine ⟨fun hk => ?_, fun hc => ?_⟩
    · have hk : sc.keepAlive http11 r (sc.chunked http11 false) = true := hk
      show 0 ≤ sc.len ∨ sc.chunked http11 false = true
      unfold HdrScan.keepAlive at hk
      split at hk
      · split at hk
        · simp only [Bool.and_eq_true, Bool.or_eq_true, decide_eq_true_eq] at hk; exact hk.1
        · simpa using hk
      · cases hk
    · have hc : sc.chunked http11 false = true := hc
      show sc.len = -1
      unfold HdrScan.chunked at hc
      split at hc
      · rename_i h1
        simp only [HdrScan.chunkable, Bool.and_eq_true, beq_iff_eq] at h1; exact h1.2.2
      · cases hc

theorem step_writeResponse {c : Conn} {rest : List Instr} (s : Int) (hs : Headers) (ct : Bytes)
    (h : Core lo c (.writeResponse s hs ct :: rest)) :
    Core lo (c.writeResponse s hs ct).1 ((c.writeResponse s hs ct).2 ++ rest) := by
  obtain ⟨ph, hruns, hset⟩ := h.data
  have hset : Settled true c ph := hset
  unfold Conn.writeResponse
  split
  · exact core_skip h rfl (by simp) (by simp) hruns hset
  · rename_i hst
    have hst : c.st = .sendingHeaders := by simpa using hst
    have hsens := sens_rest_free h rfl (by rw [hst]; rfl)
    refine core_push h h.fault (by simp [Instr.frame]) ?_ h.dev (fun _ => h.resp (by simp)) hruns ?_
    · rw [sens_free (by show c.st.free = true; rw [hst]; rfl), hsens]; rfl
    · obtain ⟨h1, h2, h3, h4, h5, h6⟩ := (settled_sendH hst).1 hset
      refine .inr ⟨hst, ?_, (settled_sendH (by exact hst)).2 ⟨h1, h2.congr rfl rfl rfl rfl rfl, h3, h4, rfl, h6⟩⟩
      show (0 : Int) ≤ ct.length
      omega

theorem readView_same (c : Conn) : Same c c.readView ∧ c.readView.fault = c.fault ∧ c.readView.dev = c.dev ∧
    c.readView.respBuf = c.respBuf := by
  unfold Conn.readView
  split
  · exact ⟨⟨rfl, rfl, rfl, rfl, rfl, rfl, rfl, rfl, rfl, rfl, rfl, rfl, rfl, rfl⟩, rfl, rfl, rfl⟩
  · exact ⟨⟨rfl, rfl, rfl, rfl, rfl, rfl, rfl, rfl, rfl, rfl, rfl, rfl, rfl, rfl⟩, rfl, rfl, rfl⟩

theorem readView_valid {c : Conn} (h : c.viewsValid = true) : c.readView = c := by
  unfold Conn.readView; rw [if_pos h]

theorem data_writeContent {c : Conn} {ph : Phase} {ct : Bytes} (h : Settled true c ph) : Data c ph (some (.writeContent ct)) := h

theorem step_writeResponseRest {c : Conn} {rest : List Instr} (ct : Bytes)
    (h : Core lo c (.writeResponseRest ct :: rest)) :
    Core lo (c.writeResponseRest ct).1 ((c.writeResponseRest ct).2 ++ rest) := by
  obtain ⟨ph, hruns, hset⟩ := h.data
  have hset : Settled true c ph := hset
  unfold Conn.writeResponseRest
  split
  · exact core_skip h rfl (by simp) (by simp) hruns hset
  · obtain ⟨hs, hf, hd, hr⟩ := readView_same c
    have hset' := hset.congr hs
    have hsens := fun top ht => sens_keep h rfl (by simp) top ht
    simp only
    split
    · refine core_push h (hf.trans h.fault) (by simp) ?_ ?_ (fun _ => hr.trans (h.resp (by simp))) (by rw [hs.log]; exact hruns)
        ((data_frame h.rest_frames).2 hset')
      · rw [hs.st, hs.viewsValid]; exact hsens _ (head_frame h.rest_frames).1
      · rw [hs.st, hd]; exact h.dev
    · refine core_push h (hf.trans h.fault) (by simp) ?_ ?_ (fun _ => hr.trans (h.resp (by simp))) (by rw [hs.log]; exact hruns)
        (data_writeContent hset')
      · rw [hs.st, hs.viewsValid]; exact hsens _ (by simp)
      · rw [hs.st, hd]; exact h.dev

theorem step_writeHeaders {c : Conn} {rest : List Instr} (s : Int) (hs : Headers)
    (h : Core lo c (.writeHeaders s hs :: rest)) :
    Inv lo (c.writeHeaders s hs).1 ((c.writeHeaders s hs).2 ++ rest) := by
  obtain ⟨ph, hruns, hset⟩ := h.data
  have hset : Settled true c ph ∨ (c.st = .sendingHeaders ∧ 0 ≤ c.respLen ∧ Settled true { c with respLen := -1 } ph) := hset
  unfold Conn.writeHeaders
  split
  · rename_i hst
    rcases hset with hset | ⟨e, -⟩
    · exact .inl (core_skip h rfl (by simp) (by simp) hruns hset)
    · exact absurd e hst
  · rename_i hst
    have hst : c.st = .sendingHeaders := by simpa using hst
    have hwk : Weak c.log := core_weak h
    obtain ⟨rfl, h2, h3, h4, h5, h6, h7⟩ : ph = .busy c.req ∧ Busy c ∧ c.http11 = (c.req.version == b!"HTTP/1.1") ∧
        c.chunked = false ∧ -1 ≤ c.respLen ∧ c.viewsValid = true ∧ c.sent = 0 := by
      rcases hset with hset | ⟨-, h0, hset⟩
      · obtain ⟨k1, k2, k3, k4, k5, k6⟩ := (settled_sendH hst).1 hset
        exact ⟨k1, k2, k3, k4, by omega, k6⟩
      · obtain ⟨k1, k2, k3, k4, k5, k6⟩ := (settled_sendH (c := { c with respLen := -1 }) hst).1 hset
        exact ⟨k1, k2.congr rfl rfl rfl rfl rfl, k3, k4, by omega, k6⟩
    have hsens := sens_rest_free h rfl (by rw [hst]; rfl)
    obtain ⟨d, hdev⟩ := Option.isSome_iff_exists.1 (h.dev (by rw [hst]; simp) (by rw [hst]; simp))
    have hbh : buildHead c.respBuf c.http11 c.req c.respLen c.chunked s hs =
        buildHead [] (c.req.version == b!"HTTP/1.1") c.req c.respLen false s hs := by
      rw [h.resp (by simp), h4, h3]
    simp only [readView_valid h6]
    split
    · exact .inr ⟨rfl, hwk, _, hruns⟩
    · rename_i hd hb
      left
      rw [hbh] at hb
      obtain ⟨f1, f2⟩ := buildHead_facts hb
      rw [write_some (c := { c with status := s, respBuf := hd.bytes, respLen := hd.len, chunked := hd.chunked, keepAlive := hd.keepAlive }) (d := d) hdev]
      refine core_push h h.fault (by simp) ?_ (fun _ _ => rfl) (by simp) (.step _ _ _ _ hruns (.head _ hd ⟨c.respLen, s, hs, h5, hb⟩)) ?_
      · rw [sens_free (by show c.st.free = true; rw [hst]; rfl), hsens]; rfl
      · refine ⟨hst, ?_, h6, hd, ⟨rfl, rfl, rfl, h7, f1, f2⟩, rfl⟩
        obtain ⟨reqs, tail, b1, b2, b3⟩ := h2
        refine ⟨reqs, tail, ?_, b2, b3⟩
        have : ∀ inp, inp = c.inp → Hist (c.log ++ [.head hd]) reqs (tail ++ inp) := by
          rintro _ rfl; exact b1.neutral trivial
        apply this
        simp [Conn.inp, unread, hdev]

theorem busy_neutral {c c' : Conn} {e : Ev} (h : Busy c) (he : e.neutral) (e1 : c'.log = c.log ++ [e]) (e2 : c'.buf = c.buf)
    (e3 : c'.inp = c.inp) (e4 : c'.parser = c.parser) (e5 : c'.clen = c.clen) : Busy c' := by
  obtain ⟨reqs, tail, b1, b2, b3⟩ := h
  exact ⟨reqs, tail, by rw [e1, e3]; exact b1.neutral he, by rw [e2, e4, e5]; exact b2, by rw [e2]; exact b3⟩

theorem step_writeContent {c : Conn} {rest : List Instr} (ct : Bytes) (h : Core lo c (.writeContent ct :: rest)) :
    Core lo (c.writeContent ct).1 ((c.writeContent ct).2 ++ rest) := by
  obtain ⟨ph, hruns, hset⟩ := h.data
  have hset : Settled true c ph := hset
  have skip : Core lo c ([] ++ rest) := core_skip h rfl (by simp) (by simp) hruns hset
  unfold Conn.writeContent
  split
  · exact skip
  rename_i hst
  have hst : c.st = .sendingContent := by simpa using hst
  obtain ⟨hd, n, rfl, hr, hb, hl0, hm, hlt, hvv⟩ := (settled_sendC hst).1 hset
  have hsens := sens_rest_free h rfl (by rw [hst]; rfl)
  obtain ⟨d, hdev⟩ := Option.isSome_iff_exists.1 (h.dev (by rw [hst]; simp) (by rw [hst]; simp))
  split
  · exact skip
  split
  · exact skip
  rename_i hfit
  split
  rotate_left
  · exact skip
  rename_i hne
  simp only [readView_valid hvv]
  have hhead : ¬ c.isHead = true := by show ¬ (c.req.method == b!"HEAD") = true; simpa using hm
  rw [if_neg hhead]
  have hct : ct ≠ [] := by intro e; simp [e] at hne
  rw [hr.len] at hfit
  have hsent := hr.sent
  have hfit' : 0 < hd.len → (n + ct.length : Int) ≤ hd.len := by
    intro h0
    have := fun x => hfit ⟨h0, x⟩
    rw [hsent] at this; omega
  generalize he : (if ({ c with sent := c.sent + ct.length } : Conn).chunked then Ev.chunk ct else Ev.body ct) = e
  have hneu : e.neutral := by rw [← he]; split <;> trivial
  rw [write_some (c := { c with sent := c.sent + ct.length }) (d := d) hdev]
  generalize hc' : ({ c with sent := c.sent + ct.length, dev := some { d with pending := d.pending + e.wire.length }, log := c.log ++ [e] } : Conn) = c'
  have p : c'.st = .sendingContent ∧ c'.log = c.log ++ [e] ∧ c'.buf = c.buf ∧ c'.inp = c.inp ∧ c'.parser = c.parser ∧
      c'.clen = c.clen ∧ c'.req = c.req ∧ c'.sent = n + ct.length ∧ c'.respLen = c.respLen ∧ c'.chunked = c.chunked ∧
      c'.keepAlive = c.keepAlive ∧ c'.viewsValid = true ∧ c'.respBuf = [] ∧ c'.fault = none ∧ c'.dev.isSome = true := by
    rw [← hc']
    exact ⟨hst, rfl, rfl, by simp [Conn.inp, unread, hdev], rfl, rfl, rfl, by rw [← hsent], rfl, rfl, rfl, hvv, h.resp (by simp), h.fault, rfl⟩
  obtain ⟨p1, p2, p3, p4, p5, p6, p7, p8, p9, p10, p11, p12, p13, p14, p15⟩ := p
  have hb' : Busy c' := busy_neutral hb hneu p2 p3 p4 p5 p6
  have hr' : Resp c' hd (n + ct.length) :=
    ⟨p9.trans hr.len, p10.trans hr.chunked, p11.trans hr.keep, p8, hr.delim, hr.chunkLen⟩
  have hnext : Next lo (.sending c.req hd n) e (if (n + ct.length : Int) = hd.len then .ended c.req hd else .sending c.req hd (n + ct.length)) := by
    have hchk : ({ c with sent := c.sent + ct.length } : Conn).chunked = hd.chunked := hr.chunked
    rw [hchk] at he
    cases hck : hd.chunked with
    | true =>
      rw [hck] at he
      simp only [↓reduceIte] at he
      subst he
      have hl := hr.chunkLen hck
      rw [if_neg (by omega)]
      exact .chunk _ _ _ _ hct hck hm hl
    | false =>
      rw [hck] at he
      simp only [Bool.false_eq_true, ↓reduceIte] at he
      subst he
      exact .body _ _ _ _ hct hck hm hl0 hfit'
  have hlog : c'.log = c.log ++ [e] := p2
  have hruns' := Runs.step _ _ _ _ hruns hnext
  rw [← hlog] at hruns'
  rw [p8, p9, hr.len]
  have hcast : ((n + ct.length : Nat) : Int) = (n : Int) + ct.length := by omega
  rw [hcast]
  split
  · rename_i heq
    rw [if_pos heq] at hruns'
    refine core_push h p14 (by simp) ?_ (fun _ _ => p15) (fun _ => p13) hruns' ?_
    · rw [sens_free (by rw [p1]; rfl), hsens]; rfl
    · exact ⟨p1, hb', p12, hd, _, hr', .inl (by rw [p7])⟩
  · rename_i heq
    rw [if_neg heq] at hruns'
    refine core_push h p14 (by simp) ?_ (fun _ _ => p15) (fun _ => p13) hruns' ((data_frame h.rest_frames).2 ?_)
    · rw [sens_free (by rw [p1]; rfl), hsens]; rfl
    · refine (settled_sendC p1).2 ⟨hd, _, by rw [p7], hr', hb', hl0, by rw [p7]; exact hm, ?_, p12⟩
      intro h0
      have := hfit' h0
      omega

theorem step_endContent {c : Conn} {rest : List Instr} (h : Core lo c (.endContent :: rest)) :
    Core lo c.endContent.1 (c.endContent.2 ++ rest) := by
  obtain ⟨ph, hruns, hset⟩ := h.data
  have hset : Settled true c ph := hset
  have skip : Core lo c ([] ++ rest) := core_skip h rfl (by simp) (by simp) hruns hset
  unfold Conn.endContent
  split
  · exact skip
  rename_i hst
  have hst : c.st = .sendingContent := by simpa using hst
  obtain ⟨hd, n, rfl, hr, hb, hl0, hm, hlt, hvv⟩ := (settled_sendC hst).1 hset
  have hsens := sens_rest_free h rfl (by rw [hst]; rfl)
  obtain ⟨d, hdev⟩ := Option.isSome_iff_exists.1 (h.dev (by rw [hst]; simp) (by rw [hst]; simp))
  split
  · exact skip
  rename_i hneg
  simp only
  cases hck : c.chunked with
  | true =>
    simp only [↓reduceIte, write_some hdev]
    refine core_push h h.fault (by simp) ?_ (fun _ _ => rfl) (fun _ => h.resp (by simp))
      (.step _ _ _ _ hruns (.lastChunk _ _ _ (hr.chunked ▸ hck) hm)) ?_
    · rw [sens_free (by show c.st.free = true; rw [hst]; rfl), hsens]; rfl
    · exact ⟨hst, busy_neutral (e := .lastChunk) hb trivial rfl rfl (by simp [Conn.inp, unread, hdev]) rfl rfl, hvv, hd, n, hr.congr rfl (by simp [hck]) rfl rfl, .inl rfl⟩
  | false =>
    simp only [Bool.false_eq_true, ↓reduceIte]
    have hlen : hd.len < 0 := by rw [← hr.len]; omega
    have hch : hd.chunked = false := hr.chunked ▸ hck
    have hk : hd.keepAlive = false := by
      cases hk : hd.keepAlive with
      | false => rfl
      | true =>
        rcases hr.delim hk with h1 | h1
        · omega
        · rw [hch] at h1; cases h1
    refine core_push h h.fault (by simp) ?_ (fun _ _ => by simp [hdev]) (fun _ => h.resp (by simp)) hruns ?_
    · rw [sens_free (by show c.st.free = true; rw [hst]; rfl), hsens]; rfl
    · exact ⟨hst, hb.congr rfl rfl rfl rfl rfl, hvv, hd, n, hr.congr rfl (by simp [hck]) (by rw [hr.keep, hk]) rfl,
        .inr ⟨rfl, hlen, hch, hm⟩⟩

/-- Executing an instruction preserves the invariant. -/
theorem step_exec {c : Conn} {i : Instr} {rest : List Instr} (k : Nat) (hi : i ≠ .env) (h : Core lo c (i :: rest)) :
    Inv lo (exec k i c).1 ((exec k i c).2 ++ rest) := by
  cases i with
  | env => exact absurd rfl hi
  | processInput => exact .inl (step_processInput h)
  | recvContent => exact .inl (step_recvContent h)
  | sendHeaders => exact .inl (step_sendHeaders h)
  | sendContent => exact .inl (step_sendContent h)
  | sendContentRest => exact .inl (step_sendContentRest h)
  | completed => exact .inl (step_complete h)
  | completedRest => exact .inl (step_completedRest h)
  | completedRest2 => exact .inl (step_completedRest2 h)
  | flush => exact .inl (step_flush k h)
  | drain => exact .inl (step_drain h)
  | drainRest => exact .inl (step_drainRest h)
  | flushing => exact .inl (step_toFlushing h)
  | flushingRest => exact .inl (step_flushingRest h)
  | closed f => exact .inl (step_toClosed f h)
  | closedRest => exact .inl (step_closedRest h)
  | errorResponse code => exact .inl (step_errorResponse code h)
  | writeResponse s hs ct => exact .inl (step_writeResponse s hs ct h)
  | writeResponseRest ct => exact .inl (step_writeResponseRest ct h)
  | writeHeaders s hs => exact step_writeHeaders s hs h
  | writeContent ct => exact .inl (step_writeContent ct h)
  | endContent => exact .inl (step_endContent h)

end Pillow
