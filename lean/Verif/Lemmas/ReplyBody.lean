import Verif.Lemmas.ReplyHead
/-!
# A whole response
-/
namespace Pillow
open Spec
variable {σ : Type} {cb : CB σ} {F V B : Bytes → σ → σ} {Rel : σ → σ → Prop}

/-- What the headers deliver. -/
def told (F V : Bytes → σ → σ) (s : σ) (hs : List RHeader) : σ := hs.foldl (fun s h => V h.value (F h.name s)) s

theorem upd_errno (q : HParser) (h : RHeader) : (upd q h).errno = q.errno := rfl

theorem steps_headers (hL : Laws cb F V B Rel) : ∀ (l : List RHeader) (q : HParser) (st : PState) (hs : HState) (i n : Nat) (s : σ), (∀ h ∈ l, h.Wf) →
    (∀ h ∈ l, SameCI h.name b!"content-length" → h.value ≠ [] → ∃ n, readNat 10 h.value = some n ∧ n < ullMax) →
    (∀ h ∈ l, SameCI h.name b!"upgrade" → h.value = []) → q.errno = .ok → (st = .fieldStart ∨ st = .valueLws) →
    n + (l.map RHeader.render).flatten.length ≤ maxHeaderSize → ∃ st' hs' i', (st' = .fieldStart ∨ st' = .valueLws) ∧
      Steps cb Rel (at_ q st hs i n) s (l.map RHeader.render).flatten (at_ (l.foldl upd q) st' hs' i' (n + (l.map RHeader.render).flatten.length)) (told F V s l)
  | [], q, st, hs, i, n, s, _, _, _, _, hst, _ => ⟨st, hs, i, hst, Steps.nil hL _ _⟩
  | h :: l, q, st, hs, i, n, s, h1, h2, h3, he, hst, hn => by
    simp only [List.map_cons, List.flatten_cons, List.length_append] at hn ⊢
    obtain ⟨hs1, i1, k1⟩ := steps_header hL h (h1 h (by simp)) (h2 h (by simp)) (h3 h (by simp)) q he st hst hs i n s (by omega)
    obtain ⟨st2, hs2, i2, hst2, k2⟩ := steps_headers hL l (upd q h) .valueLws hs1 i1 (n + h.render.length) (V h.value (F h.name s)) (fun x hx => h1 x (by simp [hx]))
      (fun x hx => h2 x (by simp [hx])) (fun x hx => h3 x (by simp [hx])) he (Or.inr rfl) (by omega)
    refine ⟨st2, hs2, i2, hst2, ?_⟩
    have := k1.trans hL k2
    rw [Nat.add_assoc] at this
    exact this

/-- The parser after the status line and the headers. -/
def headed (q : HParser) (h : RHead) : HParser :=
  h.headers.foldl upd { begun q with major := num h.major, minor := num h.minor, status := num h.status }

/-- The head up to its last byte. -/
def RHead.open_ (h : RHead) : Bytes :=
  b!"HTTP/" ++ h.major ++ b!"." ++ h.minor ++ b!" " ++ h.status ++ h.reason ++ b!"\r\n" ++ (h.headers.map RHeader.render).flatten ++ b!"\r"

theorem open_render (h : RHead) : h.render = RHead.open_ h ++ b!"\n" := by
  unfold RHead.render RHead.open_
  simp

theorem steps_head (hL : Laws cb F V B Rel) {MB : σ → σ} (hM : ∀ p s, cb .messageBegin p s = (p, MB s)) (h : RHead) (hw : h.Wf) (q : HParser) (he : q.errno = .ok)
    (hs : HState) (i n : Nat) (s : σ) (hn : n + h.render.length ≤ maxHeaderSize) : ∃ hs' i',
      Steps cb Rel (at_ q .startRes hs i n) s (RHead.open_ h) (at_ (headed q h) .headersAlmostDone hs' i' (n + (RHead.open_ h).length)) (told F V (MB s) h.headers) := by
  rw [open_render, List.length_append] at hn
  unfold RHead.open_ at hn ⊢
  rw [List.length_append, List.length_append (bs := (h.headers.map RHeader.render).flatten)] at hn ⊢
  simp only [List.length_singleton] at hn ⊢
  have k1 := steps_line hL hM h q he hs i n s hw.major hw.minor hw.status hw.reason (by omega)
  have hlen : ∀ x ∈ h.headers, SameCI x.name b!"content-length" → x.value ≠ [] → ∃ n, readNat 10 x.value = some n ∧ n < ullMax := by
    intro x hx h1 h2
    refine hw.lengths x.value ?_
    unfold RHead.lengths
    exact List.mem_map.2 ⟨x, List.mem_filter.2 ⟨hx, by simp [h1, h2]⟩, rfl⟩
  generalize hln : (b!"HTTP/" ++ h.major ++ b!"." ++ h.minor ++ b!" " ++ h.status ++ h.reason ++ b!"\r\n") = ln at *
  obtain ⟨st2, hs2, i2, hst2, k2⟩ := steps_headers hL h.headers { begun q with major := num h.major, minor := num h.minor, status := num h.status } .fieldStart hs i
    (n + ln.length) (MB s) hw.headers hlen hw.noUpgrade he (Or.inl rfl) (by omega)
  refine ⟨hs2, i2, ?_⟩
  refine (k1.trans hL k2).trans hL (b := b!"\r") ?_
  rw [← Nat.add_assoc, ← Nat.add_assoc]
  refine step_plain hL ?_ (Or.inl (by simp only [at_]; omega)) ?_
  · rcases hst2 with rfl | rfl <;> simp [at_]
  · rcases hst2 with rfl | rfl <;> rfl

/-! ## What the parser knows after the head -/

theorem foldl_upd (l : List RHeader) (q : HParser) : l.foldl upd q =
    { q with
      fChunked := q.fChunked || decide (∃ x ∈ l, SameCI x.name b!"transfer-encoding" ∧ Says x.value b!"chunked")
      fKeepAlive := q.fKeepAlive || decide (∃ x ∈ l, (SameCI x.name b!"connection" ∨ SameCI x.name b!"proxy-connection") ∧ Says x.value b!"keep-alive")
      fClose := q.fClose || decide (∃ x ∈ l, (SameCI x.name b!"connection" ∨ SameCI x.name b!"proxy-connection") ∧ Says x.value b!"close")
      contentLength := (((l.filter fun x => decide (SameCI x.name b!"content-length" ∧ x.value ≠ [])).map RHeader.value).getLast?.map num).getD q.contentLength } := by
  induction l generalizing q with
  | nil => simp
  | cons h l ih =>
    rw [List.foldl_cons, ih]
    unfold upd
    dsimp only
    congr 1
    · rw [List.filter_cons]
      by_cases hc : SameCI h.name b!"content-length" ∧ h.value ≠ []
      · rw [if_pos hc, if_pos (by simpa using hc), List.map_cons]
        generalize hg : (l.filter fun x => decide (SameCI x.name b!"content-length" ∧ x.value ≠ [])).map RHeader.value = g
        cases g with
        | nil => rfl
        | cons a g =>
          rw [List.getLast?_cons_cons]
          cases hl : (a :: g).getLast? with
          | none => simp at hl
          | some v => rfl
      · rw [if_neg hc, if_neg (by simpa using hc)]
    · simp [Bool.or_assoc]
    · simp [Bool.or_assoc]
    · simp [Bool.or_assoc]

instance (h : RHead) : Decidable h.IsChunked := inferInstanceAs (Decidable (∃ x ∈ h.headers, _))
instance (h : RHead) (t : Bytes) : Decidable (h.Connection t) := inferInstanceAs (Decidable (∃ x ∈ h.headers, _))
instance (h : RHead) : Decidable h.Keeps := by unfold RHead.Keeps; infer_instance
instance (n : Nat) : Decidable (NoContent n) := by unfold NoContent; infer_instance

theorem headed_eq (q : HParser) (h : RHead) : headed q h =
    { q with
      major := num h.major, minor := num h.minor, status := num h.status, contentLength := h.announced.getD ullMax
      fChunked := decide h.IsChunked, fKeepAlive := decide (h.Connection b!"keep-alive"), fClose := decide (h.Connection b!"close")
      fTrailing := false, fUpgrade := false, fSkipBody := false } := by
  unfold headed
  rw [foldl_upd]
  rfl

theorem announced_lt {h : RHead} (hw : h.Wf) {n : Nat} (ha : h.announced = some n) : n < ullMax := by
  unfold RHead.announced at ha
  rw [Option.map_eq_some_iff] at ha
  obtain ⟨v, hv, rfl⟩ := ha
  obtain ⟨n, hn, hl⟩ := hw.lengths v (List.mem_of_getLast? hv)
  rw [num_eq hn]; exact hl

/-! ## The end of the head -/

/-- Parsing the bytes `bs` ends with `p'` and `s'`. -/
def Ends (cb : CB σ) (Rel : σ → σ → Prop) (p : HParser) (s : σ) (bs : Bytes) (p' : HParser) (s' : σ) : Prop :=
  Good 0 p → p.errno = .ok → ∀ rest pos, Agree Rel (execLoop cb p s (fresh p) (bs ++ rest) pos) (p', s', pos + bs.length)

theorem Steps.ends (hL : Laws cb F V B Rel) {p p1 p2 : HParser} {s s1 s2 : σ} {a b : Bytes} (h : Steps cb Rel p s a p1 s1)
    (h' : Ends cb Rel p1 s1 b p2 s2) : Ends cb Rel p s (a ++ b) p2 s2 := by
  intro hg he rest pos
  obtain ⟨g1, e1, k1⟩ := h hg he
  have := (k1 (b ++ rest) pos).trans hL (h' g1 e1 rest (pos + a.length))
  simpa [Nat.add_assoc] using this

theorem step_ret (hL : Laws cb F V B Rel) {p p1 : HParser} {s s1 : σ} {ch : Byte}
    (hb : p.state ≠ .bodyIdentity ∧ p.state ≠ .chunkData ∧ p.state ≠ .bodyEof) (hn : p.nread + 1 ≤ maxHeaderSize ∨ p.state.isHeader = false)
    (hw : switch cb (counted p) s (fresh p) ch [ch] = .ret p1 s1 1) : Ends cb Rel p s [ch] p1 s1 := by
  intro hg he rest pos
  rw [List.singleton_append, execLoop_cons, if_neg, switch_rest (ch :: rest) [ch], hw]
  · exact Agree.refl hL _
  · rw [(counted_facts p).1]; exact hb.1
  · rw [(counted_facts p).1]; exact hb.2.1
  · rw [(counted_facts p).1]; exact hb.2.2
  · unfold counted
    rcases hn with hn | hn
    · split
      · rename_i h; simp only [h, Bool.true_and, decide_eq_true_eq]; omega
      · rename_i h; simp [h]
    · simp [hn]

/-- The parser of `http_parser_execute` when it reports the end of the headers. -/
def reporting (q : HParser) (hs : HState) (i n : Nat) : HParser := { at_ q .headersDone hs i n with upgrade := false }

theorem almost_done {p p1 : HParser} {s s1 : σ} {m : Marks} (hf : p.fTrailing = false)
    (h : cb .headersComplete { p with state := .headersDone, upgrade := p.fUpgrade } s = (p1, s1)) (h1 : p1.errno = .ok) :
    doHeadersAlmostDone cb p s m 10 = doHeadersDone cb p1 s1 m 10 := by
  unfold doHeadersAlmostDone
  rw [if_neg (by decide), hf, if_neg (by decide)]
  dsimp only
  rw [← hf, h]
  dsimp only
  rw [if_neg (fun e => e h1)]

theorem done_eq {p : HParser} {s : σ} {m : Marks} (hu : p.upgrade = false) (hk : p.fSkipBody = false) :
    doHeadersDone cb p s m 10 =
      if p.fChunked = true then .go { p with nread := 0, state := .chunkSizeStart } s m 1
      else if p.contentLength = 0 then notify cb .messageComplete { p with nread := 0, state := p.newMessage } s m
      else if p.contentLength ≠ ullMax then .go { p with nread := 0, state := .bodyIdentity } s m 1
      else if p.needsEof = false then notify cb .messageComplete { p with nread := 0, state := p.newMessage } s m
      else .go { p with nread := 0, state := .bodyEof } s m 1 := by
  unfold doHeadersDone
  rw [if_neg (by decide)]
  cases p
  dsimp only at hu hk
  subst hu hk
  dsimp only
  rw [if_neg (by decide), if_neg (by decide)]
  simp only [Bool.not_eq_true']
  rfl

theorem switch_lf {q : HParser} (he : q.errno = .ok) (hf : q.fTrailing = false) (hu : q.fUpgrade = false) {hs : HState} {i n : Nat} {s s1 : σ}
    (hH : cb .headersComplete (reporting q hs i (n + 1)) s = (reporting q hs i (n + 1), s1)) :
    switch cb (counted (at_ q .headersAlmostDone hs i n)) s (fresh (at_ q .headersAlmostDone hs i n)) 10 [10] =
      doHeadersDone cb (reporting q hs i (n + 1)) s1 {} 10 := by
  show doHeadersAlmostDone cb (at_ q .headersAlmostDone hs i (n + 1)) s {} 10 = _
  refine almost_done hf ?_ he
  refine (congrArg (fun p => cb .headersComplete p s) ?_).trans hH
  unfold reporting at_
  dsimp only
  rw [hu]

/-- The parser after the head. -/
def bodyAt (q : HParser) (st : PState) (hs : HState) (i n : Nat) : HParser := { at_ q st hs i n with upgrade := false }

theorem notify_done (hL : Laws cb F V B Rel) {p : HParser} (he : p.errno = .ok) (s : σ) (m : Marks) :
    notify cb .messageComplete p s m = .ret (cb .messageComplete p s).1 (cb .messageComplete p s).2 1 := by
  unfold notify
  rw [he]
  dsimp only
  rw [show p.assert (Errno.ok == Errno.ok) = p from rfl, if_pos (hL.tame.done p s he)]

theorem head_over (hL : Laws cb F V B Rel) {q : HParser} (he : q.errno = .ok) (hf : q.fTrailing = false) (hu : q.fUpgrade = false) (hk : q.fSkipBody = false)
    {hs : HState} {i n : Nat} {s s1 : σ} (hn : n + 1 ≤ maxHeaderSize) (hH : cb .headersComplete (reporting q hs i (n + 1)) s = (reporting q hs i (n + 1), s1)) :
    (q.fChunked = true → Steps cb Rel (at_ q .headersAlmostDone hs i n) s b!"\n" (bodyAt q .chunkSizeStart hs i 0) s1) ∧
    (q.fChunked = false → q.contentLength = 0 ∨ (q.contentLength = ullMax ∧ NoContent q.status) →
      Ends cb Rel (at_ q .headersAlmostDone hs i n) s b!"\n" (cb .messageComplete (bodyAt q q.newMessage hs i 0) s1).1 (cb .messageComplete (bodyAt q q.newMessage hs i 0) s1).2) ∧
    (q.fChunked = false → q.contentLength ≠ 0 → q.contentLength ≠ ullMax →
      Steps cb Rel (at_ q .headersAlmostDone hs i n) s b!"\n" (bodyAt q .bodyIdentity hs i 0) s1) ∧
    (q.fChunked = false → q.contentLength = ullMax → ¬ NoContent q.status →
      Steps cb Rel (at_ q .headersAlmostDone hs i n) s b!"\n" (bodyAt q .bodyEof hs i 0) s1) := by
  have hw := switch_lf he hf hu hH
  have nb : (at_ q .headersAlmostDone hs i n).state ≠ .bodyIdentity ∧ (at_ q .headersAlmostDone hs i n).state ≠ .chunkData ∧ (at_ q .headersAlmostDone hs i n).state ≠ .bodyEof := by
    simp [at_]
  have nn : (at_ q .headersAlmostDone hs i n).nread + 1 ≤ maxHeaderSize := hn
  have hd : doHeadersDone cb (reporting q hs i (n + 1)) s1 {} 10 =
      if q.fChunked = true then .go (bodyAt q .chunkSizeStart hs i 0) s1 {} 1
      else if q.contentLength = 0 then notify cb .messageComplete (bodyAt q q.newMessage hs i 0) s1 {}
      else if q.contentLength ≠ ullMax then .go (bodyAt q .bodyIdentity hs i 0) s1 {} 1
      else if q.needsEof = false then notify cb .messageComplete (bodyAt q q.newMessage hs i 0) s1 {}
      else .go (bodyAt q .bodyEof hs i 0) s1 {} 1 := by
    exact done_eq rfl hk
  rw [hd] at hw
  have heof : q.fChunked = false → q.contentLength = ullMax → (q.needsEof = false ↔ NoContent q.status) := by
    intro h1 h2
    unfold HParser.needsEof NoContent
    rw [h1, h2, hk]
    by_cases a : q.status / 100 = 1 <;> by_cases b : q.status = 204 <;> by_cases c : q.status = 304 <;> simp [a, b, c]
  refine ⟨fun h => ?_, fun h h2 => ?_, fun h h2 h3 => ?_, fun h h2 h3 => ?_⟩
  · rw [if_pos h] at hw
    exact step_plain hL nb (Or.inl nn) hw
  · rw [if_neg (by simp [h])] at hw
    refine step_ret hL nb (Or.inl nn) (hw.trans ?_)
    rw [notify_done hL (by exact he)]
    rcases h2 with h2 | ⟨h2, h3⟩
    · rw [if_pos h2]
    · rw [if_neg (by rw [h2]; decide), if_neg (fun e => e h2), if_pos ((heof h h2).2 h3)]
  · rw [if_neg (by simp [h]), if_neg h2, if_pos h3] at hw
    exact step_plain hL nb (Or.inl nn) hw
  · rw [if_neg (by simp [h]), if_neg (by rw [h2]; decide), if_neg (fun e => e h2), if_neg (fun e => h3 ((heof h h2).1 e))] at hw
    exact step_plain hL nb (Or.inl nn) hw

/-! ## Bodies -/

theorem ends_identity (hL : Laws cb F V B Rel) (q : HParser) (hs : HState) (i : Nat) (s : σ) (content : Bytes) (hc : q.contentLength = content.length)
    (h0 : content ≠ []) : Ends cb Rel (bodyAt q .bodyIdentity hs i 0) s content
      (cb .messageComplete { bodyAt q q.newMessage hs i 0 with contentLength := 0, state := ({ q with contentLength := 0 } : HParser).newMessage } (B content s)).1
      (cb .messageComplete { bodyAt q q.newMessage hs i 0 with contentLength := 0, state := ({ q with contentLength := 0 } : HParser).newMessage } (B content s)).2 := by
  intro hg he rest pos
  obtain ⟨c, t, rfl⟩ := List.exists_cons_of_ne_nil h0
  rw [List.cons_append, execLoop_body (by simp [bodyAt, at_]), switch_identity rfl]
  have hcl : (bodyAt q .bodyIdentity hs i 0).contentLength = (c :: t).length := hc
  rw [doBodyIdentity_full hL hg rfl he (by rw [hcl]; simp)]
  dsimp only
  rw [hcl, ← List.cons_append, List.take_append_of_le_length (by simp), List.take_length]
  exact Agree.refl hL _

theorem steps_chunkData (hL : Laws cb F V B Rel) (q : HParser) (hs : HState) (i : Nat) (s : σ) (data : Bytes) (hc : q.contentLength = data.length)
    (h0 : data ≠ []) : Steps cb Rel (bodyAt q .chunkData hs i 0) s data (bodyAt { q with contentLength := 0 } .chunkDataAlmostDone hs i 0) (B data s) := by
  intro hg he
  have hg' : Good 0 (bodyAt { q with contentLength := 0 } .chunkDataAlmostDone hs i 0) := by
    have h1 := hg.noBad; have h2 := hg.chunk (by simp [bodyAt, at_])
    constructor <;> simp_all [bodyAt, at_]
  refine ⟨hg', he, fun rest pos => ?_⟩
  obtain ⟨c, t, rfl⟩ := List.exists_cons_of_ne_nil h0
  rw [List.cons_append, execLoop_body (by simp [bodyAt, at_]), switch_chunk rfl]
  have hcl : (bodyAt q .chunkData hs i 0).contentLength = (c :: t).length := hc
  rw [doChunkData_eq hg rfl, hcl, if_pos (by simp)]
  dsimp only
  rw [Nat.min_eq_left (by simp), ← List.cons_append, List.take_append_of_le_length (by simp), List.take_length,
    List.drop_append_of_le_length (by simp), show t.drop ((c :: t).length - 1) = [] by simp, List.nil_append]
  have hm : MOk (bodyAt { q with contentLength := 0 } .chunkDataAlmostDone hs i 0) ⟨none, none, some (c :: t)⟩ := by
    constructor <;> simp [bodyAt, at_]
  have := execLoop_fresh hL rest (bodyAt { q with contentLength := 0 } .chunkDataAlmostDone hs i 0) s ⟨none, none, some (c :: t)⟩ (pos + (c :: t).length) hm he hg'
  exact this

/-- The end of a chunk's data. -/
theorem steps_chunkEnd (hL : Laws cb F V B Rel) (q : HParser) (hq : q.fChunked = true) (h0 : q.contentLength = 0) (hs : HState) (i : Nat) (s : σ) :
    Steps cb Rel (bodyAt q .chunkDataAlmostDone hs i 0) s b!"\r\n" (bodyAt q .chunkSizeStart hs i 0) s := by
  have k1 : Steps cb Rel (bodyAt q .chunkDataAlmostDone hs i 0) s b!"\r" (bodyAt q .chunkDataDone hs i 0) s := by
    refine step_plain hL (by simp [bodyAt, at_]) (Or.inr rfl) ?_
    show dataBody cb { (bodyAt q .chunkDataAlmostDone hs i 0).assert (q.fChunked && q.contentLength == 0) with state := .chunkDataDone } s {} = _
    rw [hq, h0]
    rfl
  have k2 : Steps cb Rel (bodyAt q .chunkDataDone hs i 0) s b!"\n" (bodyAt q .chunkSizeStart hs i 0) s := by
    refine step_plain hL (by simp [bodyAt, at_]) (Or.inr rfl) ?_
    show Res.go { (bodyAt q .chunkDataDone hs i 0).assert q.fChunked with nread := 0, state := .chunkSizeStart } s {} 1 = _
    rw [hq]
    rfl
  exact k1.trans hL k2

/-! ### Chunk sizes -/

/-- The value of hexadecimal digits. -/
def hexNum (a : Nat) (s : Bytes) : Nat := s.foldl (fun a c => a * 16 + (unhexC c).getD 0) a

theorem hexNum_cons (a : Nat) (c : Byte) (s : Bytes) : hexNum a (c :: s) = hexNum (a * 16 + (unhexC c).getD 0) s := by
  unfold hexNum; rw [List.foldl_cons]

theorem hexNum_mono : ∀ (s : Bytes) (a : Nat), a ≤ hexNum a s
  | [], a => Nat.le_refl a
  | c :: s, a => by rw [hexNum_cons]; exact Nat.le_trans (by omega) (hexNum_mono s _)

theorem unhex_eq (c : Byte) : unhexC c = hexVal c := by
  revert c; apply byte_forall; decide +kernel

theorem unhex_lt (c : Byte) : ∀ d, unhexC c = some d → d < 16 ∧ c ≠ 13 ∧ c ≠ 10 := by
  have key : ∀ c : Byte, (match unhexC c with | some d => decide (d < 16 ∧ c ≠ 13 ∧ c ≠ 10) | none => true) = true := by
    apply byte_forall; decide +kernel
  intro d h
  have := key c
  rw [h] at this
  simpa using this

theorem readFold_hex : ∀ (s : Bytes) (a n : Nat), s.foldl (fun acc c => do
    let a ← acc
    let d ← hexVal c
    if d < 16 then some (16 * a + d) else none) (some a) = some n → (∀ c ∈ s, (unhexC c).isSome = true) ∧ hexNum a s = n
  | [], a, n, h => by simp at h; exact ⟨by simp, h⟩
  | c :: s, a, n, h => by
    rw [List.foldl_cons] at h
    cases hv : hexVal c with
    | none => simp only [hv] at h; exact absurd (h.symm.trans (readFold_none 16 s)) (by simp)
    | some d =>
      have hu : unhexC c = some d := (unhex_eq c).trans hv
      have hd := (unhex_lt c d hu).1
      have h2 : (do let a ← (some a : Option Nat); let d ← hexVal c; if d < 16 then some (16 * a + d) else none) = some (16 * a + d) := by
        simp [hv, hd]
      rw [h2] at h
      obtain ⟨h3, h4⟩ := readFold_hex s _ n h
      refine ⟨by simpa [hu] using h3, ?_⟩
      rw [hexNum_cons, hu, ← h4, Nat.mul_comm]
      rfl

theorem readNat_hex {s : Bytes} {n : Nat} (h : readNat 16 s = some n) : s ≠ [] ∧ (∀ c ∈ s, (unhexC c).isSome = true) ∧ hexNum 0 s = n := by
  unfold readNat at h
  split at h
  · cases h
  · rename_i hs; exact ⟨hs, readFold_hex s 0 n h⟩

theorem steps_size (hL : Laws cb F V B Rel) : ∀ (t : Bytes) (q : HParser) (hs : HState) (i n : Nat) (s : σ), q.fChunked = true → (∀ c ∈ t, (unhexC c).isSome = true) →
    hexNum q.contentLength t < ullMax → n + t.length ≤ maxHeaderSize →
    Steps cb Rel (bodyAt q .chunkSize hs i n) s t (bodyAt { q with contentLength := hexNum q.contentLength t } .chunkSize hs i (n + t.length)) s
  | [], q, hs, i, n, s, _, _, _, _ => Steps.nil hL _ _
  | c :: t, q, hs, i, n, s, hq, hd, hb, hn => by
    simp only [List.length_cons] at hn
    obtain ⟨d, hc⟩ := Option.isSome_iff_exists.1 (hd c (by simp))
    rw [hexNum_cons, hc, Option.getD_some] at hb ⊢
    have hle : q.contentLength * 16 + d ≤ hexNum (q.contentLength * 16 + d) t := hexNum_mono t _
    have h1 : Steps cb Rel (bodyAt q .chunkSize hs i n) s [c] (bodyAt { q with contentLength := q.contentLength * 16 + d } .chunkSize hs i (n + 1)) s := by
      refine step_plain hL (by simp [bodyAt, at_]) (Or.inl (by simp only [bodyAt, at_]; omega)) ?_
      have e : (bodyAt q .chunkSize hs i (n + 1)).assert q.fChunked = bodyAt q .chunkSize hs i (n + 1) := by rw [hq]; rfl
      show (if c = 13 then _ else match unhexC c with | none => _ | some d => match addDigit ((bodyAt q .chunkSize hs i (n + 1)).assert q.fChunked) 16 d with | none => _ | some p => Res.go p s {} 1) = _
      rw [if_neg (unhex_lt c d hc).2.1, hc, e]
      dsimp only
      rw [addDigit_ok (by decide) (by show q.contentLength * 16 + d < ullMax; omega)]
      rfl
    have := h1.trans hL (steps_size hL t { q with contentLength := q.contentLength * 16 + d } hs i (n + 1) s hq (fun x hx => hd x (by simp [hx])) hb (by omega))
    rw [show n + 1 + t.length = n + (c :: t).length by simp; omega] at this
    exact this

theorem steps_params (hL : Laws cb F V B Rel) : ∀ (t : Bytes) (q : HParser) (hs : HState) (i n : Nat) (s : σ), q.fChunked = true → (∀ b ∈ t, TextChar b) →
    n + t.length ≤ maxHeaderSize → Steps cb Rel (bodyAt q .chunkParams hs i n) s t (bodyAt q .chunkParams hs i (n + t.length)) s
  | [], q, hs, i, n, s, _, _, _ => Steps.nil hL _ _
  | c :: t, q, hs, i, n, s, hq, hd, hn => by
    simp only [List.length_cons] at hn
    have h1 : Steps cb Rel (bodyAt q .chunkParams hs i n) s [c] (bodyAt q .chunkParams hs i (n + 1)) s := by
      refine step_plain hL (by simp [bodyAt, at_]) (Or.inl (by simp only [bodyAt, at_]; omega)) ?_
      show (if c = 13 then _ else Res.go ((bodyAt q .chunkParams hs i (n + 1)).assert q.fChunked) s {} 1) = _
      rw [if_neg (hd c (by simp)).1, hq]
      rfl
    have := h1.trans hL (steps_params hL t q hs i (n + 1) s hq (fun x hx => hd x (by simp [hx])) (by omega))
    rw [show n + 1 + t.length = n + (c :: t).length by simp; omega] at this
    exact this

/-- A chunk-size line. -/
theorem steps_sizeLine (hL : Laws cb F V B Rel) (q : HParser) (hq : q.fChunked = true) (hs : HState) (i : Nat) (s : σ) (size ext : Bytes) (v : Nat)
    (hv : readNat 16 size = some v) (hvl : v < ullMax) (hx : Extension ext) (hn : size.length + ext.length + 2 ≤ maxHeaderSize) :
    Steps cb Rel (bodyAt q .chunkSizeStart hs i 0) s (size ++ ext ++ b!"\r\n")
      (if v = 0 then bodyAt { q with contentLength := 0, fTrailing := true } .fieldStart hs i 0 else bodyAt { q with contentLength := v } .chunkData hs i 0) s := by
  obtain ⟨h0, hd, he⟩ := readNat_hex hv
  obtain ⟨c, t, rfl⟩ := List.exists_cons_of_ne_nil h0
  simp only [List.length_cons] at hn
  obtain ⟨d, hc⟩ := Option.isSome_iff_exists.1 (hd c (by simp))
  rw [hexNum_cons, hc, Option.getD_some, Nat.zero_mul, Nat.zero_add] at he
  have k1 : Steps cb Rel (bodyAt q .chunkSizeStart hs i 0) s [c] (bodyAt { q with contentLength := d } .chunkSize hs i 1) s := by
    refine step_plain hL (by simp [bodyAt, at_]) (Or.inl (by simp only [bodyAt, at_]; omega)) ?_
    show (match unhexC c with | none => _ | some d => Res.go { (bodyAt q .chunkSizeStart hs i 1).assert (1 == 1 && q.fChunked) with contentLength := d, state := .chunkSize } s {} 1) = _
    have e : (bodyAt q .chunkSizeStart hs i 1).assert (1 == 1 && q.fChunked) = bodyAt q .chunkSizeStart hs i 1 := by
      rw [show ((1 == 1 && q.fChunked) = true) by rw [hq]; rfl]; rfl
    rw [hc, e]
    rfl
  have k2 := steps_size hL t { q with contentLength := d } hs i 1 s hq (fun x hx => hd x (by simp [hx])) (by dsimp only; omega) (by omega)
  dsimp only at k2
  rw [he] at k2
  generalize hqv : ({ q with contentLength := v } : HParser) = qv at k2
  have hqc : qv.fChunked = true := by rw [← hqv]; exact hq
  have k3 : ∃ (st : PState) (n : Nat), (st = .chunkSize ∨ st = .chunkParams) ∧ n = 1 + t.length + ext.length ∧ Steps cb Rel (bodyAt qv .chunkSize hs i (1 + t.length)) s ext (bodyAt qv st hs i n) s := by
    rcases hx with rfl | ⟨x, e, rfl, hx1, hx2⟩
    · exact ⟨.chunkSize, _, Or.inl rfl, rfl, Steps.nil hL _ _⟩
    · simp only [List.length_cons] at hn ⊢
      refine ⟨.chunkParams, 1 + t.length + 1 + e.length, Or.inr rfl, by omega, ?_⟩
      have a : Steps cb Rel (bodyAt qv .chunkSize hs i (1 + t.length)) s [x] (bodyAt qv .chunkParams hs i (1 + t.length + 1)) s := by
        refine step_plain hL (by simp [bodyAt, at_]) (Or.inl (by simp only [bodyAt, at_]; omega)) ?_
        have e : (bodyAt qv .chunkSize hs i (1 + t.length + 1)).assert qv.fChunked = bodyAt qv .chunkSize hs i (1 + t.length + 1) := by rw [hqc]; rfl
        have hxn : x ≠ 13 ∧ unhexC x = none := by rcases hx1 with rfl | rfl <;> decide
        show (if x = 13 then _ else match unhexC x with | none => (if x = 59 ∨ x = 32 then Res.go { (bodyAt qv .chunkSize hs i (1 + t.length + 1)).assert qv.fChunked with state := .chunkParams } s {} 1 else _) | some d => _) = _
        rw [if_neg hxn.1, hxn.2, e]
        dsimp only
        rw [if_pos hx1]
        rfl
      exact a.trans hL (steps_params hL e qv hs i _ s hqc hx2 (by omega))
  obtain ⟨st, n, hst, hnn, k3⟩ := k3
  have k4 : Steps cb Rel (bodyAt qv st hs i n) s b!"\r" (bodyAt qv .chunkSizeAlmostDone hs i (n + 1)) s := by
    rcases hst with rfl | rfl
    · refine step_plain hL (by simp [bodyAt, at_]) (Or.inl (by simp only [bodyAt, at_]; omega)) ?_
      show Res.go { (bodyAt qv .chunkSize hs i (n + 1)).assert qv.fChunked with state := .chunkSizeAlmostDone } s {} 1 = _
      rw [hqc]; rfl
    · refine step_plain hL (by simp [bodyAt, at_]) (Or.inl (by simp only [bodyAt, at_]; omega)) ?_
      show Res.go { (bodyAt qv .chunkParams hs i (n + 1)).assert qv.fChunked with state := .chunkSizeAlmostDone } s {} 1 = _
      rw [hqc]; rfl
  have hqvc : qv.contentLength = v := by rw [← hqv]
  have k5 : Steps cb Rel (bodyAt qv .chunkSizeAlmostDone hs i (n + 1)) s b!"\n"
      (if v = 0 then bodyAt { q with contentLength := 0, fTrailing := true } .fieldStart hs i 0 else bodyAt qv .chunkData hs i 0) s := by
    refine step_plain hL (by simp [bodyAt, at_]) (Or.inl (by simp only [bodyAt, at_]; omega)) ?_
    have e : (bodyAt qv .chunkSizeAlmostDone hs i (n + 2)).assert qv.fChunked = bodyAt qv .chunkSizeAlmostDone hs i (n + 2) := by rw [hqc]; rfl
    show (if ((bodyAt qv .chunkSizeAlmostDone hs i (n + 2)).assert qv.fChunked).contentLength = 0 then
        Res.go { (bodyAt qv .chunkSizeAlmostDone hs i (n + 2)).assert qv.fChunked with nread := 0, fTrailing := true, state := .fieldStart } s {} 1
      else Res.go { (bodyAt qv .chunkSizeAlmostDone hs i (n + 2)).assert qv.fChunked with nread := 0, state := .chunkData } s {} 1) = _
    rw [e]
    by_cases h : v = 0
    · rw [if_pos (show (bodyAt qv .chunkSizeAlmostDone hs i (n + 2)).contentLength = 0 from hqvc.trans h), if_pos h, ← hqv, h]; rfl
    · rw [if_neg (show ¬ (bodyAt qv .chunkSizeAlmostDone hs i (n + 2)).contentLength = 0 from fun e => h (hqvc.symm.trans e)), if_neg h]; rfl
  have := (((k1.trans hL k2).trans hL k3).trans hL k4).trans hL k5
  rw [show [c] ++ t ++ ext ++ b!"\r" ++ b!"\n" = c :: t ++ ext ++ b!"\r\n" by simp] at this
  exact this

/-- The whole of a chunked body. -/
theorem ends_chunked (hL : Laws cb F V B Rel) {wire content : Bytes} (hw : ChunkedBody wire content) : ∀ (q : HParser), q.fChunked = true → ∀ (hs : HState) (i : Nat) (s : σ),
    q.errno = .ok → ∃ q', q' = ({ q with contentLength := 0, fTrailing := true } : HParser) ∧
    Ends cb Rel (bodyAt q .chunkSizeStart hs i 0) s wire (cb .messageComplete (bodyAt q' q'.newMessage hs i 2) (B content s)).1
      (cb .messageComplete (bodyAt q' q'.newMessage hs i 2) (B content s)).2 := by
  induction hw with
  | last size ext h1 h2 h3 =>
    intro q hq hs i s he
    refine ⟨_, rfl, ?_⟩
    have k1 := steps_sizeLine hL q hq hs i s size ext 0 h1 (by decide) h2 h3
    rw [if_pos rfl] at k1
    generalize hq' : ({ q with contentLength := 0, fTrailing := true } : HParser) = q' at k1 ⊢
    have k2 : Steps cb Rel (bodyAt q' .fieldStart hs i 0) s b!"\r" (bodyAt q' .headersAlmostDone hs i 1) s :=
      step_plain hL (by simp [bodyAt, at_]) (Or.inl (by simp only [bodyAt, at_]; decide)) rfl
    have k3 : Ends cb Rel (bodyAt q' .headersAlmostDone hs i 1) s b!"\n" (cb .messageComplete (bodyAt q' q'.newMessage hs i 2) s).1
        (cb .messageComplete (bodyAt q' q'.newMessage hs i 2) s).2 := by
      refine step_ret hL (by simp [bodyAt, at_]) (Or.inl (by simp only [bodyAt, at_]; decide)) ?_
      rw [← notify_done hL (by rw [← hq']; exact he) s {}]
      show doHeadersAlmostDone cb (bodyAt q' .headersAlmostDone hs i 2) s {} 10 = _
      unfold doHeadersAlmostDone
      rw [if_neg (by decide), if_pos (by rw [← hq']; rfl)]
      rfl
    have := (k1.trans hL k2).ends hL k3
    rw [hL.bodyNil]
    rw [show size ++ ext ++ b!"\r\n" ++ b!"\r" ++ b!"\n" = size ++ ext ++ b!"\r\n" ++ b!"\r\n" by simp] at this
    exact this
  | chunk size ext data wire content h1 h2 h3 h4 h5 _ ih =>
    intro q hq hs i s he
    have hdl : data.length ≠ 0 := by simpa using h2
    have k1 := steps_sizeLine hL q hq hs i s size ext data.length h1 h3 h4 h5
    rw [if_neg hdl] at k1
    have k2 := steps_chunkData hL { q with contentLength := data.length } hs i s data rfl h2
    have k3 := steps_chunkEnd hL { q with contentLength := 0 } hq rfl hs i (B data s)
    obtain ⟨q', rfl, k4⟩ := ih { q with contentLength := 0 } hq hs i (B data s) he
    refine ⟨_, rfl, ?_⟩
    have := ((k1.trans hL k2).trans hL k3).ends hL k4
    rw [← hL.bodyApp] at this
    rw [show size ++ ext ++ b!"\r\n" ++ data ++ b!"\r\n" ++ wire = size ++ ext ++ b!"\r\n" ++ data ++ b!"\r\n" ++ wire from rfl]
    exact this

end Pillow
