import Verif.Lemmas.ReplyWhole
/-!
# A beginning of a response's body
-/
namespace Pillow
open Spec
variable {σ : Type} {cb : CB σ} {F V B : Bytes → σ → σ} {Rel : σ → σ → Prop}

/-- Parsing a proper beginning of `w` only delivers content, and leaves the parser outside of a header. -/
def Partly (cb : CB σ) (B : Bytes → σ → σ) (Rel : σ → σ → Prop) (p : HParser) (s : σ) (w : Bytes) : Prop :=
  ∀ u v, w = u ++ v → v ≠ [] → ∃ x piece, (fresh x = {} ∧ x.status = p.status) ∧ Steps cb Rel p s u x (B piece s)

theorem Partly.trans (hL : Laws cb F V B Rel) {p p1 : HParser} {s : σ} {a b piece : Bytes} (h : Partly cb B Rel p s a) (hs : Steps cb Rel p s a p1 (B piece s))
    (h' : Partly cb B Rel p1 (B piece s) b) (hst : p1.status = p.status := by rfl) : Partly cb B Rel p s (a ++ b) := by
  have second : ∀ c v, b = c ++ v → v ≠ [] → ∃ x piece, (fresh x = {} ∧ x.status = p.status) ∧ Steps cb Rel p s (a ++ c) x (B piece s) := by
    intro c v hb hv
    obtain ⟨x, q, h1, h2⟩ := h' c v hb hv
    rw [← hL.bodyApp] at h2
    exact ⟨x, _, ⟨h1.1, h1.2.trans hst⟩, hs.trans hL h2⟩
  intro u v hw hv
  rcases List.append_eq_append_iff.1 hw with ⟨c, h1, h2⟩ | ⟨c, h1, h2⟩
  · rw [h1]
    exact second c v h2 hv
  · by_cases hc : c = []
    · subst hc
      rw [List.append_nil] at h1
      rw [List.nil_append] at h2
      obtain ⟨x, q, k1, k2⟩ := second [] v h2.symm hv
      rw [List.append_nil, h1] at k2
      exact ⟨x, q, k1, k2⟩
    · exact h u c h1 hc

theorem Partly.single (hL : Laws cb F V B Rel) {p : HParser} (h : fresh p = {}) (s : σ) (c : Byte) : Partly cb B Rel p s [c] := by
  intro u v hw hv
  cases u with
  | nil => exact ⟨p, [], ⟨h, rfl⟩, by rw [hL.bodyNil]; exact Steps.nil hL _ _⟩
  | cons x u =>
    rw [List.cons_append, List.cons.injEq] at hw
    have := (List.append_eq_nil_iff.1 hw.2.symm).2
    exact absurd this hv

/-- One more byte. -/
theorem Partly.snoc (hL : Laws cb F V B Rel) {p p1 : HParser} {s : σ} {a piece : Bytes} (h : Partly cb B Rel p s a) (hs : Steps cb Rel p s a p1 (B piece s)) (h1 : fresh p1 = {}) (c : Byte)
    (hst : p1.status = p.status := by rfl) : Partly cb B Rel p s (a ++ [c]) := h.trans hL hs (Partly.single hL h1 _ c) hst

theorem Steps.plainly (hL : Laws cb F V B Rel) {p p1 : HParser} {s : σ} {a : Bytes} (h : Steps cb Rel p s a p1 s) : Steps cb Rel p s a p1 (B [] s) := by
  rw [hL.bodyNil]; exact h

theorem Partly.nil {p : HParser} {s : σ} : Partly cb B Rel p s [] := fun u v h hv => absurd (List.append_eq_nil_iff.1 h.symm).2 hv

theorem fresh_body {q : HParser} {st : PState} {hs : HState} {i n : Nat} (h : st ≠ .field ∧ st ≠ .value) : fresh (bodyAt q st hs i n) = {} := by
  show Marks.mk (if st = .field then some [] else none) (if st = .value then some [] else none) none = _
  rw [if_neg h.1, if_neg h.2]

/-! ## Data -/

/-- A part of the data of a body or a chunk. -/
theorem steps_inside (hL : Laws cb F V B Rel) {p : HParser} {s : σ} {a : Bytes} (ha : a ≠ []) (hs : (p.state = .bodyIdentity ∨ p.state = .chunkData) ∧ a.length < p.contentLength) :
    Steps cb Rel p s a { p with contentLength := p.contentLength - a.length } (B a s) := by
  intro hg he
  obtain ⟨c, t, rfl⟩ := List.exists_cons_of_ne_nil ha
  have hq : Good 0 ({ p with contentLength := p.contentLength - (c :: t).length } : HParser) := by
    have hb := hg.noBad
    have h1 := hg.size (by rcases hs.1 with h | h <;> simp [h])
    have h2 : p.state = .chunkData → p.fChunked = true := fun h => hg.chunk (by simp [h])
    obtain ⟨h3, h4⟩ := hs
    generalize (c :: t).length = n at h4 ⊢
    rcases h3 with h3 | h3
    all_goals constructor <;> simp_all <;> omega
  have hf : fresh p = {} := by
    unfold fresh
    rcases hs.1 with h | h <;> rw [h] <;> rfl
  have hm : MOk ({ p with contentLength := p.contentLength - (c :: t).length } : HParser) ⟨none, none, some (c :: t)⟩ := by
    constructor <;> rcases hs.1 with h | h <;> simp [h]
  have hrun : ∀ pos, execLoop cb p s (fresh p) (c :: t) pos = ({ p with contentLength := p.contentLength - (c :: t).length }, B (c :: t) s, pos + (c :: t).length) := by
    intro pos
    have hw : switch cb p s (fresh p) c (c :: t) = .go { p with contentLength := p.contentLength - (c :: t).length } s { (fresh p) with body := some ((fresh p).body.getD []) } (c :: t).length := by
      rcases hs.1 with h | h
      · rw [switch_identity h, doBodyIdentity_part hg h hs.2]
      · rw [switch_chunk h, doChunkData_eq hg h, if_neg (by have := hs.2; omega), Nat.min_eq_right (by have := hs.2; omega)]
    rw [execLoop_body (by rcases hs.1 with h | h <;> simp [h]), hw]
    dsimp only
    rw [List.drop_of_length_le (by simp), execLoop_nil, hf, List.take_length,
      show (Marks.adv { ({} : Marks) with body := some (({} : Marks).body.getD []) } (c :: t)) = ⟨none, none, some (c :: t)⟩ from rfl, leftover_eq hL hm he]
    rfl
  refine ⟨hq, he, fun rest pos => ?_⟩
  have := execLoop_append hL (c :: t) rest p s (fresh p) pos (fresh_ok p) he hg
  rw [hrun] at this
  unfold andThen at this
  rw [if_pos he] at this
  dsimp only at this
  rw [← execLoop_pos] at this
  exact this

theorem partly_data (hL : Laws cb F V B Rel) {p : HParser} {s : σ} {data : Bytes} (hs : p.state = .bodyIdentity ∨ p.state = .chunkData) (hc : p.contentLength = data.length) :
    Partly cb B Rel p s data := by
  intro u v hw hv
  have hf : ∀ n, fresh ({ p with contentLength := n } : HParser) = {} := by
    intro n
    unfold fresh
    dsimp only
    rcases hs with h | h <;> rw [h] <;> rfl
  by_cases hu : u = []
  · subst hu
    exact ⟨p, [], ⟨hf p.contentLength, rfl⟩, (Steps.nil hL _ _).plainly hL⟩
  · refine ⟨_, u, ⟨hf _, by rfl⟩, steps_inside hL hu ⟨hs, ?_⟩⟩
    rw [hc, hw, List.length_append]
    have : v.length ≠ 0 := by simpa using hv
    omega

/-! ## Chunks -/

theorem partly_size (hL : Laws cb F V B Rel) (t : Bytes) (q : HParser) (hs : HState) (i n : Nat) (s : σ) (hq : q.fChunked = true) (hd : ∀ c ∈ t, (unhexC c).isSome = true)
    (hb : hexNum q.contentLength t < ullMax) (hn : n + t.length ≤ maxHeaderSize) : Partly cb B Rel (bodyAt q .chunkSize hs i n) s t := by
  intro u v hw _
  subst hw
  rw [List.length_append] at hn
  have hb' : hexNum q.contentLength u < ullMax := by
    refine Nat.lt_of_le_of_lt ?_ hb
    unfold hexNum
    rw [List.foldl_append]
    exact hexNum_mono v _
  exact ⟨_, [], ⟨fresh_body (by simp), by rfl⟩, (steps_size hL u q hs i n s hq (fun c hc => hd c (by simp [hc])) hb' (by omega)).plainly hL⟩

theorem partly_params (hL : Laws cb F V B Rel) (t : Bytes) (q : HParser) (hs : HState) (i n : Nat) (s : σ) (hq : q.fChunked = true) (hd : ∀ b ∈ t, TextChar b)
    (hn : n + t.length ≤ maxHeaderSize) : Partly cb B Rel (bodyAt q .chunkParams hs i n) s t := by
  intro u v hw _
  subst hw
  rw [List.length_append] at hn
  exact ⟨_, [], ⟨fresh_body (by simp), by rfl⟩, (steps_params hL u q hs i n s hq (fun c hc => hd c (by simp [hc])) (by omega)).plainly hL⟩

theorem partly_sizeLine (hL : Laws cb F V B Rel) (q : HParser) (hq : q.fChunked = true) (hs : HState) (i : Nat) (s : σ) (size ext : Bytes) (v : Nat)
    (hv : readNat 16 size = some v) (hvl : v < ullMax) (hx : Extension ext) (hn : size.length + ext.length + 2 ≤ maxHeaderSize) :
    Partly cb B Rel (bodyAt q .chunkSizeStart hs i 0) s (size ++ ext ++ b!"\r\n") := by
  obtain ⟨h0, hd, he⟩ := readNat_hex hv
  obtain ⟨c, t, rfl⟩ := List.exists_cons_of_ne_nil h0
  simp only [List.length_cons] at hn
  obtain ⟨d, hc⟩ := Option.isSome_iff_exists.1 (hd c (by simp))
  rw [hexNum_cons, hc, Option.getD_some, Nat.zero_mul, Nat.zero_add] at he
  have k1 : Steps cb Rel (bodyAt q .chunkSizeStart hs i 0) s [c] (bodyAt { q with contentLength := d } .chunkSize hs i 1) s := by
    refine step_plain hL (by simp [bodyAt, at_]) (Or.inl (by simp only [bodyAt, at_]; omega)) ?_
    show (match unhexC c with | none => _ | some d => Res.go { (bodyAt q .chunkSizeStart hs i 1).assert (1 == 1 && q.fChunked) with contentLength := d, state := .chunkSize } s {} 1) = _
    have e : (bodyAt q .chunkSizeStart hs i 1).assert (1 == 1 && q.fChunked) = bodyAt q .chunkSizeStart hs i 1 := by
      rw [show ((1 == 1 && q.fChunked) = true) by rw [hq]; rfl]; rfl
    rw [hc, e]
    rfl
  have p1 : Partly cb B Rel (bodyAt q .chunkSizeStart hs i 0) s [c] := Partly.single hL (fresh_body (by simp)) s c
  have k2 := steps_size hL t { q with contentLength := d } hs i 1 s hq (fun x hx => hd x (by simp [hx])) (by dsimp only; omega) (by omega)
  have p2 : Partly cb B Rel (bodyAt { q with contentLength := d } .chunkSize hs i 1) (B [] s) t := partly_size hL t { q with contentLength := d } hs i 1 _ hq (fun x hx => hd x (by simp [hx])) (by dsimp only; omega) (by omega)
  have p12 := p1.trans hL (k1.plainly hL) p2
  have k12 := k1.trans hL k2
  dsimp only at k12
  rw [he] at k12
  generalize hqv : ({ q with contentLength := v } : HParser) = qv at k12
  have hqc : qv.fChunked = true := by rw [← hqv]; exact hq
  have hqs : qv.status = q.status := by rw [← hqv]
  have k3 : ∃ (st : PState) (n : Nat), (st = .chunkSize ∨ st = .chunkParams) ∧ n = 1 + t.length + ext.length ∧ Steps cb Rel (bodyAt qv .chunkSize hs i (1 + t.length)) s ext (bodyAt qv st hs i n) s ∧
      Partly cb B Rel (bodyAt qv .chunkSize hs i (1 + t.length)) (B [] s) ext := by
    rcases hx with rfl | ⟨x, e, rfl, hx1, hx2⟩
    · exact ⟨.chunkSize, _, Or.inl rfl, rfl, Steps.nil hL _ _, Partly.nil⟩
    · simp only [List.length_cons] at hn ⊢
      have a : ∀ s : σ, Steps cb Rel (bodyAt qv .chunkSize hs i (1 + t.length)) s [x] (bodyAt qv .chunkParams hs i (1 + t.length + 1)) s := by
        intro s
        refine step_plain hL (by simp [bodyAt, at_]) (Or.inl (by simp only [bodyAt, at_]; omega)) ?_
        have e : (bodyAt qv .chunkSize hs i (1 + t.length + 1)).assert qv.fChunked = bodyAt qv .chunkSize hs i (1 + t.length + 1) := by rw [hqc]; rfl
        have hxn : x ≠ 13 ∧ unhexC x = none := by rcases hx1 with rfl | rfl <;> decide
        show (if x = 13 then _ else match unhexC x with | none => (if x = 59 ∨ x = 32 then Res.go { (bodyAt qv .chunkSize hs i (1 + t.length + 1)).assert qv.fChunked with state := .chunkParams } s {} 1 else _) | some d => _) = _
        rw [if_neg hxn.1, hxn.2, e]
        dsimp only
        rw [if_pos hx1]
        rfl
      refine ⟨.chunkParams, 1 + t.length + 1 + e.length, Or.inr rfl, by omega, (a s).trans hL (steps_params hL e qv hs i _ s hqc hx2 (by omega)), ?_⟩
      exact (Partly.single hL (fresh_body (by simp)) _ x).trans hL ((a _).plainly hL) (partly_params hL e qv hs i _ _ hqc hx2 (by omega))
  obtain ⟨st, n, hst, hnn, k3, p3⟩ := k3
  have p4 := p12.trans hL (k12.plainly hL) p3 hqs
  have k4 : Steps cb Rel (bodyAt qv st hs i n) s b!"\r" (bodyAt qv .chunkSizeAlmostDone hs i (n + 1)) s := by
    rcases hst with rfl | rfl
    · refine step_plain hL (by simp [bodyAt, at_]) (Or.inl (by simp only [bodyAt, at_]; omega)) ?_
      show Res.go { (bodyAt qv .chunkSize hs i (n + 1)).assert qv.fChunked with state := .chunkSizeAlmostDone } s {} 1 = _
      rw [hqc]; rfl
    · refine step_plain hL (by simp [bodyAt, at_]) (Or.inl (by simp only [bodyAt, at_]; omega)) ?_
      show Res.go { (bodyAt qv .chunkParams hs i (n + 1)).assert qv.fChunked with state := .chunkSizeAlmostDone } s {} 1 = _
      rw [hqc]; rfl
  have p5 := p4.snoc hL ((k12.trans hL k3).plainly hL) (fresh_body (by rcases hst with rfl | rfl <;> simp)) 13 hqs
  have p6 := p5.snoc hL (((k12.trans hL k3).trans hL k4).plainly hL) (fresh_body (by simp)) 10 hqs
  rw [show [c] ++ t ++ ext ++ [13] ++ [10] = c :: t ++ ext ++ b!"\r\n" by simp] at p6
  exact p6

theorem partly_chunked (hL : Laws cb F V B Rel) {wire content : Bytes} (hw : ChunkedBody wire content) : ∀ (q : HParser), q.fChunked = true → ∀ (hs : HState) (i : Nat) (s : σ),
    Partly cb B Rel (bodyAt q .chunkSizeStart hs i 0) s wire := by
  induction hw with
  | last size ext h1 h2 h3 =>
    intro q hq hs i s
    have k1 := steps_sizeLine hL q hq hs i s size ext 0 h1 (by decide) h2 h3
    rw [if_pos rfl] at k1
    have p1 := partly_sizeLine hL q hq hs i s size ext 0 h1 (by decide) h2 h3
    generalize hq' : ({ q with contentLength := 0, fTrailing := true } : HParser) = q' at k1
    have hqs : q'.status = q.status := by rw [← hq']
    have k2 : Steps cb Rel (bodyAt q' .fieldStart hs i 0) s b!"\r" (bodyAt q' .headersAlmostDone hs i 1) s :=
      step_plain hL (by simp [bodyAt, at_]) (Or.inl (by simp only [bodyAt, at_]; decide)) rfl
    have p2 := p1.snoc hL (k1.plainly hL) (fresh_body (by simp)) 13 hqs
    have p3 := p2.snoc hL ((k1.trans hL k2).plainly hL) (fresh_body (by simp)) 10 hqs
    rw [show size ++ ext ++ b!"\r\n" ++ [13] ++ [10] = size ++ ext ++ b!"\r\n" ++ b!"\r\n" by simp] at p3
    exact p3
  | chunk size ext data wire content h1 h2 h3 h4 h5 _ ih =>
    intro q hq hs i s
    have hdl : data.length ≠ 0 := by simpa using h2
    have k1 := steps_sizeLine hL q hq hs i s size ext data.length h1 h3 h4 h5
    rw [if_neg hdl] at k1
    have p1 := partly_sizeLine hL q hq hs i s size ext data.length h1 h3 h4 h5
    have k2 := steps_chunkData hL { q with contentLength := data.length } hs i s data rfl h2
    have p2 := p1.trans hL (k1.plainly hL) (partly_data hL (p := bodyAt { q with contentLength := data.length } .chunkData hs i 0) (Or.inr rfl) rfl)
    have p3 := p2.snoc hL (k1.trans hL k2) (fresh_body (by simp)) 13
    have k3a : Steps cb Rel (bodyAt { q with contentLength := 0 } .chunkDataAlmostDone hs i 0) (B data s) b!"\r" (bodyAt { q with contentLength := 0 } .chunkDataDone hs i 0) (B data s) := by
      refine step_plain hL (by simp [bodyAt, at_]) (Or.inr rfl) ?_
      show dataBody cb { (bodyAt { q with contentLength := 0 } .chunkDataAlmostDone hs i 0).assert (q.fChunked && (0 : Nat) == 0) with state := .chunkDataDone } (B data s) {} = _
      rw [hq]
      rfl
    have p4 := p3.snoc hL ((k1.trans hL k2).trans hL k3a) (fresh_body (by simp)) 10
    have k3 := steps_chunkEnd hL { q with contentLength := 0 } hq rfl hs i (B data s)
    have k4 := (k1.trans hL k2).trans hL k3
    rw [show size ++ ext ++ b!"\r\n" ++ data ++ [13] ++ [10] = size ++ ext ++ b!"\r\n" ++ data ++ b!"\r\n" by simp] at p4
    exact p4.trans hL k4 (ih { q with contentLength := 0 } hq hs i (B data s))

/-- `part` is a beginning of what may follow the head `h`, not all of it. -/
theorem steps_part (hL : Laws cb F V B Rel) {MB : σ → σ} (hM : ∀ p s, cb .messageBegin p s = (p, MB s)) (h : RHead) (hh : h.Wf) (part : Bytes)
    (hb : EndsWithConnection h ∨ ∃ wire content more, BodyOf h wire content ∧ wire = part ++ more ∧ more ≠ [])
    (q : HParser) (he : q.errno = .ok) (hst : q.state = .startRes) (hn : q.nread ≤ 2) (s HC : σ)
    (hH : ∀ p, p.errno = .ok → Knows p h → cb .headersComplete p (told F V (MB s) h.headers) = (p, HC)) :
    ∀ u v, part = u ++ v → ∃ x piece, (fresh x = {} ∧ x.status = num h.status) ∧ Steps cb Rel q s (h.render ++ u) x (B piece HC) := by
  rcases hb with hb | ⟨wire, content, more, hb, hw, hmore⟩
  · obtain ⟨x, hkx, -, h1, -, h2⟩ := steps_untilEof hL hM h hh hb q he hst hn s HC hH
    intro u v _
    refine ⟨x, u, ⟨?_, hkx.status⟩, h2.trans hL (steps_eof hL x h1 HC u)⟩
    unfold fresh
    rw [h1]
    rfl
  have hsz := hh.size
  have hq0 : q = at_ q .startRes q.hstate q.index q.nread := by rw [← hst]; rfl
  obtain ⟨hs1, i1, k1⟩ := steps_head hL hM h hh q he q.hstate q.index q.nread s (by unfold maxHeaderSize; omega)
  rw [← hq0] at k1
  have hol : (RHead.open_ h).length + 1 = h.render.length := by rw [open_render]; simp
  generalize hnn : q.nread + (RHead.open_ h).length = nn at k1
  have hk := knows_headed q h
  have herr : (headed q h).errno = .ok := by rw [headed_eq]; exact he
  have hcl : (headed q h).contentLength = h.announced.getD ullMax := by rw [headed_eq]
  have hch : (headed q h).fChunked = decide h.IsChunked := by rw [headed_eq]
  have hfu : (headed q h).fUpgrade = false := by rw [headed_eq]
  have hft : (headed q h).fTrailing = false := by rw [headed_eq]
  generalize headed q h = Q at k1 hk herr hcl hch hfu hft
  have hHr : cb .headersComplete (reporting Q hs1 i1 (nn + 1)) (told F V (MB s) h.headers) = (reporting Q hs1 i1 (nn + 1), HC) :=
    hH _ herr ⟨hk.1, hk.2, hk.3, hk.4, hk.5, hk.6⟩
  obtain ⟨o1, -, o3, -⟩ := head_over hL (q := Q) herr hft hfu hk.skip (hs := hs1) (i := i1) (n := nn) (by unfold maxHeaderSize; omega) hHr
  have over : ∀ y, Steps cb Rel (at_ Q .headersAlmostDone hs1 i1 nn) (told F V (MB s) h.headers) b!"\n" y HC → Partly cb B Rel y HC wire → y.status = Q.status →
      ∀ u v, part = u ++ v → ∃ x piece, (fresh x = {} ∧ x.status = num h.status) ∧ Steps cb Rel q s (h.render ++ u) x (B piece HC) := by
    intro y h1 h2 hys u v huv
    obtain ⟨x, piece, h3, h4⟩ := h2 u (v ++ more) (by rw [hw, huv, List.append_assoc]) (by simp [hmore])
    refine ⟨x, piece, ⟨h3.1, h3.2.trans (hys.trans hk.status)⟩, ?_⟩
    rw [open_render]
    exact (k1.trans hL h1).trans hL h4
  cases hb with
  | chunked _ _ hc hbody =>
    have hqc : Q.fChunked = true := by rw [hch]; simpa using hc
    exact over _ (o1 hqc) (partly_chunked hL hbody Q hqc hs1 i1 HC) rfl
  | sized _ hc ha =>
    have hqc : Q.fChunked = false := by rw [hch]; simpa using hc
    rw [ha, Option.getD_some] at hcl
    have hlt := announced_lt hh ha
    have hcz : wire.length ≠ 0 := by rw [hw]; simp [hmore]
    exact over _ (o3 hqc (by rw [hcl]; exact hcz) (by rw [hcl]; omega)) (partly_data hL (Or.inl rfl) hcl) rfl
  | none hc ha hno =>
    have := (List.append_eq_nil_iff.1 hw.symm).2
    exact absurd this hmore

/-- Parsing a proper beginning of `w` delivers nothing, and leaves the parser outside of a header. -/
def Plainly (cb : CB σ) (Rel : σ → σ → Prop) (p : HParser) (s : σ) (w : Bytes) : Prop :=
  ∀ u v, w = u ++ v → v ≠ [] → ∃ x, fresh x = {} ∧ Steps cb Rel p s u x s

theorem Plainly.trans (hL : Laws cb F V B Rel) {p p1 : HParser} {s : σ} {a b : Bytes} (h : Plainly cb Rel p s a) (hs : Steps cb Rel p s a p1 s)
    (h' : Plainly cb Rel p1 s b) : Plainly cb Rel p s (a ++ b) := by
  have second : ∀ c v, b = c ++ v → v ≠ [] → ∃ x, fresh x = {} ∧ Steps cb Rel p s (a ++ c) x s := by
    intro c v hb hv
    obtain ⟨x, h1, h2⟩ := h' c v hb hv
    exact ⟨x, h1, hs.trans hL h2⟩
  intro u v hw hv
  rcases List.append_eq_append_iff.1 hw with ⟨c, h1, h2⟩ | ⟨c, h1, h2⟩
  · rw [h1]
    exact second c v h2 hv
  · by_cases hc : c = []
    · subst hc
      rw [List.append_nil] at h1
      rw [List.nil_append] at h2
      obtain ⟨x, k1, k2⟩ := second [] v h2.symm hv
      rw [List.append_nil, h1] at k2
      exact ⟨x, k1, k2⟩
    · exact h u c h1 hc

theorem Plainly.single (hL : Laws cb F V B Rel) {p : HParser} (h : fresh p = {}) (s : σ) (c : Byte) : Plainly cb Rel p s [c] := by
  intro u v hw hv
  cases u with
  | nil => exact ⟨p, h, Steps.nil hL _ _⟩
  | cons x u =>
    rw [List.cons_append, List.cons.injEq] at hw
    exact absurd (List.append_eq_nil_iff.1 hw.2.symm).2 hv

theorem Plainly.snoc (hL : Laws cb F V B Rel) {p p1 : HParser} {s : σ} {a : Bytes} (h : Plainly cb Rel p s a) (hs : Steps cb Rel p s a p1 s) (h1 : fresh p1 = {}) (c : Byte) :
    Plainly cb Rel p s (a ++ [c]) := h.trans hL hs (Plainly.single hL h1 _ c)

/-- Pieces of the status line. -/
theorem plainly_at {hs : HState} {i : Nat} (fr : ∀ (q : HParser) (st : PState) (n : Nat), st ≠ .field ∧ st ≠ .value → fresh (at_ q st hs i n) = {})
    (st : PState) (hst : st ≠ .field ∧ st ≠ .value) {p : HParser} {s : σ} {w : Bytes} (h : ∀ u v, w = u ++ v → ∃ q n, Steps cb Rel p s u (at_ q st hs i n) s) : Plainly cb Rel p s w := by
  intro u v hw _
  obtain ⟨q, n, h⟩ := h u v hw
  exact ⟨_, fr q st n hst, h⟩

/-- A beginning of the status line. -/
theorem steps_linePart (hL : Laws cb F V B Rel) {MB : σ → σ} (hM : ∀ p s, cb .messageBegin p s = (p, MB s)) (h : RHead) (q : HParser) (he : q.errno = .ok) (hs : HState)
    (i n : Nat) (s : σ) (h1 : Small h.major) (h2 : Small h.minor) (h3 : Small h.status)
    (h4 : h.reason = [] ∨ ∃ t, h.reason = 32 :: t ∧ ∀ b ∈ t, TextChar b)
    (hn : n + (b!"HTTP/" ++ h.major ++ b!"." ++ h.minor ++ b!" " ++ h.status ++ h.reason ++ b!"\r\n").length ≤ maxHeaderSize) :
    ∀ u v, b!"HTTP/" ++ h.major ++ b!"." ++ h.minor ++ b!" " ++ h.status ++ h.reason ++ b!"\r\n" = u ++ v → v ≠ [] →
      ∃ x s', fresh x = {} ∧ (s' = s ∨ s' = MB s) ∧ Steps cb Rel (at_ q .startRes hs i n) s u x s' := by
  obtain ⟨c1, t1, e1, d1, a1, b1, v1⟩ := small_cons h1
  obtain ⟨c2, t2, e2, d2, a2, b2, v2⟩ := small_cons h2
  obtain ⟨c3, t3, e3, d3, a3, b3, v3⟩ := small_cons h3
  rw [e1, e2, e3, List.length_append, List.length_append, List.length_append, List.length_append, List.length_append, List.length_append,
    List.length_append] at hn
  simp only [List.length_cons, List.length_nil] at hn
  have k0 : Steps cb Rel (at_ q .startRes hs i n) s b!"H" (at_ (begun q) .resH hs i (n + 1)) (MB s) := by
    refine step_plain hL (by simp [at_]) (Or.inl (by simp only [at_]; omega)) ?_
    show notify cb .messageBegin (at_ (begun q) .resH hs i (n + 1)) s {} = _
    unfold notify
    rw [hM, show (at_ (begun q) PState.resH hs i (n + 1)).errno = Errno.ok from he]
    dsimp only
    rw [if_neg]
    · rfl
    · exact fun h => h he
  have k1 : Steps cb Rel (at_ (begun q) .resH hs i (n + 1)) (MB s) b!"T" (at_ (begun q) .resHT hs i (n + 2)) (MB s) :=
    step_plain hL (by simp [at_]) (Or.inl (by simp only [at_]; omega)) rfl
  have k2 : Steps cb Rel (at_ (begun q) .resHT hs i (n + 2)) (MB s) b!"T" (at_ (begun q) .resHTT hs i (n + 3)) (MB s) :=
    step_plain hL (by simp [at_]) (Or.inl (by simp only [at_]; omega)) rfl
  have k3 : Steps cb Rel (at_ (begun q) .resHTT hs i (n + 3)) (MB s) b!"P" (at_ (begun q) .resHTTP hs i (n + 4)) (MB s) :=
    step_plain hL (by simp [at_]) (Or.inl (by simp only [at_]; omega)) rfl
  have k4 : Steps cb Rel (at_ (begun q) .resHTTP hs i (n + 4)) (MB s) b!"/" (at_ (begun q) .firstMajor hs i (n + 5)) (MB s) :=
    step_plain hL (by simp [at_]) (Or.inl (by simp only [at_]; omega)) rfl
  have k5 : Steps cb Rel (at_ (begun q) .firstMajor hs i (n + 5)) (MB s) [c1] (at_ { begun q with major := c1.toNat - 48 } .major hs i (n + 6)) (MB s) := by
    refine step_plain hL (by simp [at_]) (Or.inl (by simp only [at_]; omega)) ?_
    show (if !isNum c1 then _ else _) = _
    rw [d1, if_neg (by simp)]
    rfl
  have k6 := steps_major hL t1 { begun q with major := c1.toNat - 48 } hs i (n + 6) (MB s) a1 b1 (by omega)
  dsimp only at k6
  rw [← v1] at k6
  generalize hq1 : ({ begun q with major := num h.major } : HParser) = q1 at k6
  generalize hn1 : n + 6 + t1.length = n1 at k6
  have k7 : Steps cb Rel (at_ q1 .major hs i n1) (MB s) b!"." (at_ q1 .firstMinor hs i (n1 + 1)) (MB s) :=
    step_plain hL (by simp [at_]) (Or.inl (by simp only [at_]; omega)) rfl
  have k8 : Steps cb Rel (at_ q1 .firstMinor hs i (n1 + 1)) (MB s) [c2] (at_ { q1 with minor := c2.toNat - 48 } .minor hs i (n1 + 2)) (MB s) := by
    refine step_plain hL (by simp [at_]) (Or.inl (by simp only [at_]; omega)) ?_
    show (if !isNum c2 then _ else _) = _
    rw [d2, if_neg (by simp)]
    rfl
  have k9 := steps_minor hL t2 { q1 with minor := c2.toNat - 48 } hs i (n1 + 2) (MB s) a2 b2 (by omega)
  dsimp only at k9
  rw [← v2] at k9
  generalize hq2 : ({ q1 with minor := num h.minor } : HParser) = q2 at k9
  generalize hn2 : n1 + 2 + t2.length = n2 at k9
  have k10 : Steps cb Rel (at_ q2 .minor hs i n2) (MB s) b!" " (at_ q2 .firstStatus hs i (n2 + 1)) (MB s) :=
    step_plain hL (by simp [at_]) (Or.inl (by simp only [at_]; omega)) rfl
  have k11 : Steps cb Rel (at_ q2 .firstStatus hs i (n2 + 1)) (MB s) [c3] (at_ { q2 with status := c3.toNat - 48 } .status hs i (n2 + 2)) (MB s) := by
    refine step_plain hL (by simp [at_]) (Or.inl (by simp only [at_]; omega)) ?_
    show (if !isNum c3 then _ else _) = _
    rw [d3, if_neg (by simp)]
    rfl
  have k12 := steps_status hL t3 { q2 with status := c3.toNat - 48 } hs i (n2 + 2) (MB s) a3 b3 (by omega)
  dsimp only at k12
  rw [← v3] at k12
  generalize hq3 : ({ q2 with status := num h.status } : HParser) = q3 at k12
  generalize hn3 : n2 + 2 + t3.length = n3 at k12
  have fr : ∀ (q : HParser) (st : PState) (n : Nat), st ≠ .field ∧ st ≠ .value → fresh (at_ q st hs i n) = {} := by
    intro q st n h
    show Marks.mk (if st = .field then some [] else none) (if st = .value then some [] else none) none = _
    rw [if_neg h.1, if_neg h.2]
  have j0 := (Steps.nil (F := F) (V := V) hL (at_ (begun q) .resH hs i (n + 1)) (MB s))
  have p0 : Plainly cb Rel (at_ (begun q) .resH hs i (n + 1)) (MB s) [] := fun u v h hv => absurd (List.append_eq_nil_iff.1 h.symm).2 hv
  have p1 := p0.snoc hL (j0) (fr _ _ _ (by simp)) 84
  have j1 := j0.trans hL k1
  have p2 := p1.snoc hL (j1) (fr _ _ _ (by simp)) 84
  have j2 := j1.trans hL k2
  have p3 := p2.snoc hL (j2) (fr _ _ _ (by simp)) 80
  have j3 := j2.trans hL k3
  have p4 := p3.snoc hL (j3) (fr _ _ _ (by simp)) 47
  have j4 := j3.trans hL k4
  have p5 := p4.snoc hL (j4) (fr _ _ _ (by simp)) c1
  have j5 := j4.trans hL k5
  have p6 := p5.trans hL (j5) (b := t1) (plainly_at fr .major (by simp) fun u v e => by
    subst e
    rw [List.length_append] at hn1 hn
    exact ⟨_, _, steps_major hL u { begun q with major := c1.toNat - 48 } hs i (n + 6) _ (fun x hx => a1 x (by simp [hx])) (by
      refine Nat.le_trans ?_ b1
      dsimp only
      unfold dec
      rw [List.foldl_append]
      exact dec_mono v _) (by omega)⟩)
  have j6 := j5.trans hL k6
  have p7 := p6.snoc hL (j6) (fr _ _ _ (by simp)) 46
  have j7 := j6.trans hL k7
  have p8 := p7.snoc hL (j7) (fr _ _ _ (by simp)) c2
  have j8 := j7.trans hL k8
  have p9 := p8.trans hL (j8) (b := t2) (plainly_at fr .minor (by simp) fun u v e => by
    subst e
    rw [List.length_append] at hn2 hn
    exact ⟨_, _, steps_minor hL u { q1 with minor := c2.toNat - 48 } hs i (n1 + 2) _ (fun x hx => a2 x (by simp [hx])) (by
      refine Nat.le_trans ?_ b2
      dsimp only
      unfold dec
      rw [List.foldl_append]
      exact dec_mono v _) (by omega)⟩)
  have j9 := j8.trans hL k9
  have p10 := p9.snoc hL (j9) (fr _ _ _ (by simp)) 32
  have j10 := j9.trans hL k10
  have p11 := p10.snoc hL (j10) (fr _ _ _ (by simp)) c3
  have j11 := j10.trans hL k11
  have p12 := p11.trans hL (j11) (b := t3) (plainly_at fr .status (by simp) fun u v e => by
    subst e
    rw [List.length_append] at hn3 hn
    exact ⟨_, _, steps_status hL u { q2 with status := c3.toNat - 48 } hs i (n2 + 2) _ (fun x hx => a3 x (by simp [hx])) (by
      refine Nat.le_trans ?_ b3
      dsimp only
      unfold dec
      rw [List.foldl_append]
      exact dec_mono v _) (by omega)⟩)
  have j12 := j11.trans hL k12
  have k13 : ∀ s : σ, Plainly cb Rel (at_ q3 .status hs i n3) s (h.reason ++ b!"\r\n") := by
    intro s
    rcases h4 with h4 | ⟨t, h4, ht⟩
    · rw [h4] at hn ⊢
      simp only [List.length_nil] at hn
      have c : Steps cb Rel (at_ q3 .status hs i n3) s b!"\r" (at_ q3 .lineAlmostDone hs i (n3 + 1)) s :=
        step_plain hL (by simp [at_]) (Or.inl (by simp only [at_]; omega)) rfl
      exact (Plainly.single hL (fr _ _ _ (by simp)) s 13).snoc hL (c) (fr _ _ _ (by simp)) 10
    · rw [h4] at hn ⊢
      simp only [List.length_cons] at hn
      have c : Steps cb Rel (at_ q3 .status hs i n3) s b!" " (at_ q3 .statusText hs i (n3 + 1)) s :=
        step_plain hL (by simp [at_]) (Or.inl (by simp only [at_]; omega)) rfl
      have d := steps_text hL t q3 hs i (n3 + 1) s ht (by omega)
      have e : Steps cb Rel (at_ q3 .statusText hs i (n3 + 1 + t.length)) s b!"\r" (at_ q3 .lineAlmostDone hs i (n3 + 1 + t.length + 1)) s :=
        step_plain hL (by simp [at_]) (Or.inl (by simp only [at_]; omega)) rfl
      have r1 := (Plainly.single hL (fr _ _ _ (by simp)) s 32).trans hL (c) (b := t) (plainly_at fr .statusText (by simp) fun u v e => by
        subst e
        rw [List.length_append] at hn
        exact ⟨_, _, steps_text hL u q3 hs i (n3 + 1) _ (fun x hx => ht x (by simp [hx])) (by omega)⟩)
      have r2 := r1.snoc hL ((c.trans hL d)) (fr _ _ _ (by simp)) 13
      have r3 := r2.snoc hL (((c.trans hL d).trans hL e)) (fr _ _ _ (by simp)) 10
      rw [show [32] ++ t ++ [13] ++ [10] = 32 :: t ++ b!"\r\n" by simp] at r3
      exact r3
  have p13 := p12.trans hL (j12) (k13 _)
  have eb : b!"H" ++ ([] ++ [84] ++ [84] ++ [80] ++ [47] ++ [c1] ++ t1 ++ [46] ++ [c2] ++ t2 ++ [32] ++ [c3] ++ t3 ++ (h.reason ++ b!"\r\n")) =
      b!"HTTP/" ++ h.major ++ b!"." ++ h.minor ++ b!" " ++ h.status ++ h.reason ++ b!"\r\n" := by
    rw [e1, e2, e3]; simp
  rw [← eb]
  intro u v huv hv
  cases u with
  | nil => exact ⟨_, s, fr _ _ _ (by simp), Or.inl rfl, Steps.nil hL _ _⟩
  | cons x u =>
    rw [List.singleton_append, List.cons_append, List.cons.injEq] at huv
    obtain ⟨rfl, huv⟩ := huv
    obtain ⟨y, f1, f2⟩ := p13 u v huv hv
    exact ⟨y, _, f1, Or.inr rfl, k0.trans hL f2⟩

end Pillow
