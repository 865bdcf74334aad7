import Verif.Lemmas.ReplyBody
/-!
# A whole response, from its first byte to `messageComplete`
-/
namespace Pillow
open Spec
variable {σ : Type} {cb : CB σ} {F V B : Bytes → σ → σ} {Rel : σ → σ → Prop}

/-- The parser knows the head `h`. -/
structure Knows (p : HParser) (h : RHead) : Prop where
  major : p.major = num h.major
  minor : p.minor = num h.minor
  status : p.status = num h.status
  close : p.fClose = decide (h.Connection b!"close")
  keep : p.fKeepAlive = decide (h.Connection b!"keep-alive")
  skip : p.fSkipBody = false

theorem knows_headed (q : HParser) (h : RHead) : Knows (headed q h) h := by
  rw [headed_eq]; exact ⟨rfl, rfl, rfl, rfl, rfl, rfl⟩

theorem knows_keep {p : HParser} {h : RHead} (hk : Knows p h) (he : p.needsEof = false) : p.shouldKeepAlive = decide h.Keeps := by
  unfold HParser.shouldKeepAlive RHead.Keeps
  rw [hk.major, hk.minor, hk.close, hk.keep, he]
  by_cases h1 : 0 < num h.major <;> by_cases h2 : 0 < num h.minor <;> simp [h1, h2]

theorem needsEof_of {p : HParser} (h : p.fChunked = true ∨ p.contentLength ≠ ullMax ∨ NoContent p.status) : p.needsEof = false := by
  unfold HParser.needsEof
  split
  · rfl
  · rename_i h1
    rcases h with h | h | h
    · simp [h]
    · simp [h]
    · exfalso; apply h1
      rcases h with h | h | h <;> simp [h]

/-- The parser when `messageComplete` is called. -/
structure Finished (p q : HParser) (h : RHead) : Prop where
  ok : p.errno = .ok
  knows : Knows p h
  keep : p.shouldKeepAlive = decide h.Keeps
  state : p.state = if h.Keeps then .startRes else .dead
  nread : p.nread ≤ 2
  eof : p.needsEof = false
  bad : p.bad = q.bad

theorem finished_of {p q : HParser} {h : RHead} (h1 : p.errno = .ok) (h2 : Knows p h) (h3 : p.fChunked = true ∨ p.contentLength ≠ ullMax ∨ NoContent p.status)
    (h4 : p.state = p.newMessage) (h5 : p.nread ≤ 2) (h6 : p.bad = q.bad) : Finished p q h := by
  have he := needsEof_of h3
  refine ⟨h1, h2, knows_keep h2 he, ?_, h5, he, h6⟩
  rw [h4]
  unfold HParser.newMessage
  rw [knows_keep h2 he]
  simp

/-- A response that does not end with the connection. -/
theorem ends_response (hL : Laws cb F V B Rel) {MB : σ → σ} (hM : ∀ p s, cb .messageBegin p s = (p, MB s)) (m : Response) (hw : m.Wf) (q : HParser) (he : q.errno = .ok)
    (hst : q.state = .startRes) (hn : q.nread ≤ 2) (s HC : σ)
    (hH : ∀ p, p.errno = .ok → Knows p m.head → cb .headersComplete p (told F V (MB s) m.head.headers) = (p, HC)) :
    ∃ p2, Finished p2 q m.head ∧ Ends cb Rel q s m.render (cb .messageComplete p2 (B m.content HC)).1 (cb .messageComplete p2 (B m.content HC)).2 := by
  obtain ⟨head, wire, content⟩ := m
  obtain ⟨hh, hb⟩ := hw
  dsimp only at hh hb hH ⊢
  have hsz := hh.size
  have hq0 : q = at_ q .startRes q.hstate q.index q.nread := by rw [← hst]; rfl
  obtain ⟨hs1, i1, k1⟩ := steps_head hL hM head hh q he q.hstate q.index q.nread s (by unfold maxHeaderSize; omega)
  rw [← hq0] at k1
  have hol : (RHead.open_ head).length + 1 = head.render.length := by rw [open_render]; simp
  generalize hnn : q.nread + (RHead.open_ head).length = nn at k1
  have hk := knows_headed q head
  have hbad : (headed q head).bad = q.bad := by rw [headed_eq]
  have herr : (headed q head).errno = .ok := by rw [headed_eq]; exact he
  have hcl : (headed q head).contentLength = head.announced.getD ullMax := by rw [headed_eq]
  have hch : (headed q head).fChunked = decide head.IsChunked := by rw [headed_eq]
  have hfu : (headed q head).fUpgrade = false := by rw [headed_eq]
  have hft : (headed q head).fTrailing = false := by rw [headed_eq]
  generalize headed q head = Q at k1 hk hbad herr hcl hch hfu hft
  have hHr : cb .headersComplete (reporting Q hs1 i1 (nn + 1)) (told F V (MB s) head.headers) = (reporting Q hs1 i1 (nn + 1), HC) :=
    hH _ herr ⟨hk.1, hk.2, hk.3, hk.4, hk.5, hk.6⟩
  obtain ⟨o1, o2, o3, -⟩ := head_over hL (q := Q) herr hft hfu hk.skip (hs := hs1) (i := i1) (n := nn) (by unfold maxHeaderSize; omega) hHr
  unfold Response.render
  dsimp only
  rw [open_render]
  have kb : ∀ st hs i n, Knows (bodyAt Q st hs i n) head := fun _ _ _ _ => ⟨hk.1, hk.2, hk.3, hk.4, hk.5, hk.6⟩
  cases hb with
  | chunked _ _ hc hbody =>
    have hqc : Q.fChunked = true := by rw [hch]; simpa using hc
    obtain ⟨q', rfl, k3⟩ := ends_chunked hL hbody Q hqc hs1 i1 HC herr
    refine ⟨_, ?_, (k1.trans hL (o1 hqc)).ends hL k3⟩
    refine finished_of herr ⟨hk.1, hk.2, hk.3, hk.4, hk.5, hk.6⟩ (Or.inl hqc) rfl (Nat.le_refl 2) hbad
  | sized _ hc ha =>
    have hqc : Q.fChunked = false := by rw [hch]; simpa using hc
    rw [ha, Option.getD_some] at hcl
    have hlt := announced_lt hh ha
    by_cases hz : wire = []
    · subst hz
      have k2 := o2 hqc (Or.inl hcl)
      refine ⟨bodyAt Q Q.newMessage hs1 i1 0, ?_, ?_⟩
      rotate_left
      · rw [hL.bodyNil, List.append_nil]
        exact k1.ends hL k2
      · refine finished_of herr (kb _ _ _ _) (Or.inr (Or.inl ?_)) rfl (Nat.zero_le _) hbad
        show Q.contentLength ≠ ullMax
        rw [hcl]; decide
    · have hcz : wire.length ≠ 0 := by simpa using hz
      have k2 := o3 hqc (by rw [hcl]; exact hcz) (by rw [hcl]; omega)
      refine ⟨_, ?_, (k1.trans hL k2).ends hL (ends_identity hL Q hs1 i1 HC wire hcl hz)⟩
      refine finished_of herr ⟨hk.1, hk.2, hk.3, hk.4, hk.5, hk.6⟩ (Or.inr (Or.inl ?_)) rfl (Nat.zero_le _) hbad
      show (0 : Nat) ≠ ullMax
      decide
  | none hc ha hno =>
    have hqc : Q.fChunked = false := by rw [hch]; simpa using hc
    rw [ha] at hcl
    have hno' : NoContent Q.status := by rw [hk.status]; exact hno
    have k2 := o2 hqc (Or.inr ⟨hcl, hno'⟩)
    refine ⟨bodyAt Q Q.newMessage hs1 i1 0, ?_, ?_⟩
    rotate_left
    · rw [hL.bodyNil, List.append_nil]
      exact k1.ends hL k2
    · exact finished_of herr (kb _ _ _ _) (Or.inr (Or.inr hno')) rfl (Nat.zero_le _) hbad

/-- Data that ends with the connection. -/
theorem steps_eof (hL : Laws cb F V B Rel) (p : HParser) (hp : p.state = .bodyEof) (s : σ) (data : Bytes) : Steps cb Rel p s data p (B data s) := by
  intro hg he
  refine ⟨hg, he, fun rest pos => ?_⟩
  by_cases hd : data = []
  · subst hd; rw [hL.bodyNil]; exact Agree.refl hL _
  obtain ⟨c, t, rfl⟩ := List.exists_cons_of_ne_nil hd
  have hf : fresh p = {} := by unfold fresh; rw [hp]; rfl
  have hrun : execLoop cb p s (fresh p) (c :: t) pos = (p, B (c :: t) s, pos + (c :: t).length) := by
    have hm : MOk p ⟨none, none, some (c :: t)⟩ := by
      constructor
      all_goals simp [hp]
    rw [execLoop_body (by rw [hp]; simp), switch_eof hp]
    dsimp only
    rw [List.drop_of_length_le (by simp), execLoop_nil, hf, List.take_length,
      show (Marks.adv { ({} : Marks) with body := ({} : Marks).body.or (some []) } (c :: t)) = ⟨none, none, some (c :: t)⟩ from rfl, leftover_eq hL hm he]
    rfl
  have := execLoop_append hL (c :: t) rest p s (fresh p) pos (fresh_ok p) he hg
  rw [hrun] at this
  unfold andThen at this
  rw [if_pos he] at this
  dsimp only at this
  rw [← execLoop_pos] at this
  exact this

/-- The head of a response that ends with the connection. -/
theorem steps_untilEof (hL : Laws cb F V B Rel) {MB : σ → σ} (hM : ∀ p s, cb .messageBegin p s = (p, MB s)) (h : RHead) (hh : h.Wf) (hb : EndsWithConnection h)
    (q : HParser) (he : q.errno = .ok) (hst : q.state = .startRes) (hn : q.nread ≤ 2) (s HC : σ)
    (hH : ∀ p, p.errno = .ok → Knows p h → cb .headersComplete p (told F V (MB s) h.headers) = (p, HC)) :
    ∃ p2, Knows p2 h ∧ p2.needsEof = true ∧ p2.state = .bodyEof ∧ p2.errno = .ok ∧ Steps cb Rel q s h.render p2 HC := by
  have hsz := hh.size
  have hq0 : q = at_ q .startRes q.hstate q.index q.nread := by rw [← hst]; rfl
  obtain ⟨hs1, i1, k1⟩ := steps_head hL hM h hh q he q.hstate q.index q.nread s (by unfold maxHeaderSize; omega)
  rw [← hq0] at k1
  have hol : (RHead.open_ h).length + 1 = h.render.length := by rw [open_render]; simp
  generalize hnn : q.nread + (RHead.open_ h).length = nn at k1
  have hk := knows_headed q h
  have herr : (headed q h).errno = .ok := by rw [headed_eq]; exact he
  have hcl : (headed q h).contentLength = h.announced.getD ullMax := by rw [headed_eq]
  have hch : (headed q h).fChunked = decide h.IsChunked := by rw [headed_eq]
  have hfu : (headed q h).fUpgrade = false := by rw [headed_eq]
  have hft : (headed q h).fTrailing = false := by rw [headed_eq]
  generalize headed q h = Q at k1 hk herr hcl hch hfu hft
  have hHr : cb .headersComplete (reporting Q hs1 i1 (nn + 1)) (told F V (MB s) h.headers) = (reporting Q hs1 i1 (nn + 1), HC) :=
    hH _ herr ⟨hk.1, hk.2, hk.3, hk.4, hk.5, hk.6⟩
  obtain ⟨-, -, -, o4⟩ := head_over hL (q := Q) herr hft hfu hk.skip (hs := hs1) (i := i1) (n := nn) (by unfold maxHeaderSize; omega) hHr
  rw [open_render]
  refine ⟨bodyAt Q .bodyEof hs1 i1 0, ⟨hk.1, hk.2, hk.3, hk.4, hk.5, hk.6⟩, ?_, rfl, herr, k1.trans hL (o4 ?_ ?_ ?_)⟩
  · show Q.needsEof = true
    unfold HParser.needsEof
    have h1 := hb.1
    have h2 := hb.2.2
    unfold NoContent at h2
    simp only [not_or] at h2
    rw [hk.status, hk.skip, hch, hcl, hb.2.1]
    simp [h1, h2]
  · rw [hch]; simpa using hb.1
  · rw [hcl, hb.2.1]; rfl
  · rw [hk.status]; exact hb.2.2

end Pillow
