import Verif.Lemmas.ThinSeg
import Verif.Lemmas.Bytes
import Verif.Spec.Connection
set_option linter.unusedSimpArgs false
/-!
# NUL termination does not disturb the views; the content length is the announced one
-/
namespace Pillow
open Spec

/-- The NUL written behind `t` lies outside `s`. -/
def Clear (t s : Slice) : Prop := t.len = 0 ∨ t.start + t.len < s.start ∨ s.start + s.len ≤ t.start + t.len

theorem of_set (buf : Bytes) (s : Slice) (i : Nat) (b : Byte) (h : i < s.start ∨ s.start + s.len ≤ i) :
    s.of (buf.set i b) = s.of buf := by
  unfold Slice.of
  rcases h with h | h
  · rw [drop_set_of_le _ _ _ _ h]
  · rw [List.drop_set, if_neg (by omega)]
    exact List.take_set_of_le (by omega)

theorem of_nulTerm {t s : Slice} (buf : Bytes) (h : Clear t s) : s.of (nulTerm buf t) = s.of buf := by
  unfold nulTerm
  split
  · rfl
  · rename_i hl
    exact of_set _ _ _ _ (by rcases h with h | h; exact absurd h hl; exact h)

theorem nulTerm_length (buf : Bytes) (t : Slice) : (nulTerm buf t).length = buf.length := by
  unfold nulTerm; split <;> simp

theorem nulTerm_drop (buf : Bytes) (t : Slice) (n : Nat) (h : t.start + t.len < n) :
    (nulTerm buf t).drop n = buf.drop n := by
  unfold nulTerm
  split
  · rfl
  · exact drop_set_of_le _ _ _ _ h

theorem setupHeaders_length (refs : List FieldRef) : ∀ buf : Bytes, (setupHeaders buf refs).length = buf.length := by
  induction refs with
  | nil => intro buf; rfl
  | cons r refs ih =>
    intro buf
    show (setupHeaders (nulTerm (nulTerm buf r.name) r.value) refs).length = _
    rw [ih, nulTerm_length, nulTerm_length]

theorem setupHeaders_drop (refs : List FieldRef) (n : Nat) : ∀ buf : Bytes,
    (∀ r ∈ refs, r.name.start + r.name.len < n ∧ r.value.start + r.value.len < n) →
    (setupHeaders buf refs).drop n = buf.drop n := by
  induction refs with
  | nil => intro buf _; rfl
  | cons r refs ih =>
    intro buf h
    show (setupHeaders (nulTerm (nulTerm buf r.name) r.value) refs).drop n = _
    rw [ih _ (fun x hx => h x (by simp [hx])), nulTerm_drop _ _ _ (h r (by simp)).2, nulTerm_drop _ _ _ (h r (by simp)).1]

theorem of_setupHeaders (s : Slice) (refs : List FieldRef) : ∀ buf : Bytes,
    (∀ r ∈ refs, Clear r.name s ∧ Clear r.value s) → s.of (setupHeaders buf refs) = s.of buf := by
  induction refs with
  | nil => intro buf _; rfl
  | cons r refs ih =>
    intro buf h
    show s.of (setupHeaders (nulTerm (nulTerm buf r.name) r.value) refs) = _
    rw [ih _ (fun x hx => h x (by simp [hx])), of_nulTerm _ (h r (by simp)).2, of_nulTerm _ (h r (by simp)).1]

/-! ### where the header slices lie -/

theorem hdrRefs_bounds : ∀ (hs : List HeaderLine) (p : Nat), ∀ r ∈ hdrRefs p hs,
    p ≤ r.name.start ∧ r.name.start + r.name.len < r.value.start ∧
    r.value.start + r.value.len < p + ((hs.map HeaderLine.render).flatten).length
  | [], _, r, hr => by simp [hdrRefs] at hr
  | h :: hs, p, r, hr => by
    simp only [hdrRefs, List.mem_cons] at hr
    simp only [List.map_cons, List.flatten_cons, List.length_append]
    rcases hr with rfl | hr
    · simp [HeaderLine.render]; omega
    · have := hdrRefs_bounds hs _ r hr
      omega

theorem hdrRefs_clear : ∀ (hs : List HeaderLine) (p : Nat), ∀ r ∈ hdrRefs p hs, ∀ r' ∈ hdrRefs p hs,
    Clear r.name r'.name ∧ Clear r.name r'.value ∧ Clear r.value r'.name ∧ Clear r.value r'.value
  | [], _, r, hr => by simp [hdrRefs] at hr
  | h :: hs, p, r, hr => by
    intro r' hr'
    simp only [hdrRefs, List.mem_cons] at hr hr'
    have hl : h.render.length = h.name.length + 1 + h.spaces + h.value.length + 2 := by
      simp [HeaderLine.render]; omega
    rcases hr with rfl | hr <;> rcases hr' with rfl | hr'
    · simp only [Clear]; omega
    · have := hdrRefs_bounds hs _ r' hr'
      simp only [Clear]; omega
    · have := hdrRefs_bounds hs _ r hr
      simp only [Clear]; omega
    · exact hdrRefs_clear hs _ r hr r' hr'

theorem hdrRefs_length : ∀ (hs : List HeaderLine) (p : Nat), (hdrRefs p hs).length = hs.length
  | [], _ => rfl
  | h :: hs, p => by simp [hdrRefs, hdrRefs_length hs]

/-- Start of the header lines. -/
def hdrStart (h : ReqHead) : Nat :=
  h.method.length + 1 + h.target.uri.length + (fragText h.fragment).length + 1 + h.version.length + 2

theorem render_length (h : ReqHead) :
    h.render.length = hdrStart h + ((h.headers.map HeaderLine.render).flatten).length + 2 := by
  simp [ReqHead.render, hdrStart]; omega

/-- The other slices end before the header lines start. -/
structure FieldsBefore (p : Parser) (n : Nat) : Prop where
  method : p.method.start + p.method.len < n
  uri : p.uri.start + p.uri.len < n
  path : p.path.start + p.path.len < n
  query : p.query.start + p.query.len < n
  fragment : p.fragment.start + p.fragment.len < n
  version : p.version.start + p.version.len < n

theorem uri_length_origin (path : Bytes) (q : Option Bytes) : path.length ≤ (Target.uri (.origin path q)).length ∧
    (∀ x, q = some x → (Target.uri (.origin path q)).length = path.length + 1 + x.length) ∧
    (q = none → (Target.uri (.origin path q)).length = path.length) := by
  cases q with
  | none => simp [Target.uri]
  | some q => simp [Target.uri]; omega

theorem fragText_length (f : Option Bytes) : (∀ x, f = some x → (fragText f).length = x.length + 1) := by
  rintro x rfl; simp [fragText]

theorem fields_before {h : ReqHead} {p : Parser} (hp : IsHeadParser h p) : FieldsBefore p (hdrStart h) := by
  obtain ⟨-, -, c3, c4, c5, c6, c7, c8, -⟩ := hp
  have hu := uri_length_origin
  have hf := fragText_length h.fragment
  constructor
  · rw [c3]; simp [hdrStart]; omega
  · rw [c4]; simp [hdrStart]; omega
  · rw [c5]
    cases ht : h.target with
    | origin path q => have := (hu path q).1; simp [hdrStart, ht]; omega
    | _ => simp [hdrStart]
  · rw [c6]
    cases ht : h.target with
    | origin path q =>
      cases q with
      | none => simp [hdrStart]
      | some x => have := (hu path (some x)).2.1 x rfl; simp [hdrStart, ht]; omega
    | _ => simp [hdrStart]
  · rw [c7]
    cases hfr : h.fragment with
    | none => simp [hdrStart]
    | some x => have := hf x hfr; rw [hfr] at this; simp [hdrStart, hfr]; omega
  · rw [c8]; simp [hdrStart]

theorem refs_bounds {h : ReqHead} {p : Parser} (hp : IsHeadParser h p) : ∀ r ∈ p.fields,
    hdrStart h ≤ r.name.start ∧ r.name.start + r.name.len < r.value.start ∧
    r.value.start + r.value.len + 2 < p.bodyStart := by
  intro r hr
  rw [hp.fields] at hr
  have := hdrRefs_bounds _ _ r hr
  have hl := render_length h
  rw [hp.bodyStart]
  unfold hdrStart at *
  omega

/-- The header views after `setupRequestHeaders`. -/
theorem viewHeaders_eq {h : ReqHead} {p : Parser} (hp : IsHeadParser h p) (rest : Bytes) :
    viewHeaders (setupHeaders (h.render ++ rest) p.fields) p.fields = h.headers.map fun l => ⟨l.name, l.value⟩ := by
  have ht := (hp.texts rest).2.2.2.2.2.2.1
  have : viewHeaders (setupHeaders (h.render ++ rest) p.fields) p.fields
      = (fieldTexts p (h.render ++ rest)).map fun f => ⟨f.1, f.2⟩ := by
    unfold viewHeaders fieldTexts
    rw [List.map_map]
    apply List.map_congr_left
    intro r hr
    have hc := fun r' hr' => hdrRefs_clear h.headers _ r' (hp.fields ▸ hr') r (hp.fields ▸ hr)
    simp only [Function.comp]
    rw [of_setupHeaders r.name _ _ (fun r' hr' => ⟨(hc r' hr').1, (hc r' hr').2.2.1⟩),
      of_setupHeaders r.value _ _ (fun r' hr' => ⟨(hc r' hr').2.1, (hc r' hr').2.2.2⟩)]
  rw [this, ht, List.map_map]
  rfl

/-- `buf` is the head and what follows it, possibly with NULs written behind header names and values. -/
structure HeadBuf (h : ReqHead) (p : Parser) (tail buf : Bytes) : Prop where
  len : buf.length = (h.render ++ tail).length
  drop : buf.drop p.bodyStart = tail
  hdr : ∀ r ∈ p.fields, r.name.of buf = r.name.of (h.render ++ tail) ∧ r.value.of buf = r.value.of (h.render ++ tail)
  other : ∀ s : Slice, s.start + s.len ≤ hdrStart h → s.of buf = s.of (h.render ++ tail)

theorem HeadBuf.raw {h : ReqHead} {p : Parser} (hp : IsHeadParser h p) (tail : Bytes) : HeadBuf h p tail (h.render ++ tail) where
  len := rfl
  drop := (hp.texts tail).2.2.2.2.2.2.2
  hdr := fun _ _ => ⟨rfl, rfl⟩
  other := fun _ _ => rfl

theorem HeadBuf.setup {h : ReqHead} {p : Parser} (hp : IsHeadParser h p) {tail buf : Bytes} (hb : HeadBuf h p tail buf) :
    HeadBuf h p tail (setupHeaders buf p.fields) where
  len := by rw [setupHeaders_length, hb.len]
  drop := by
    rw [setupHeaders_drop, hb.drop]
    intro r hr
    have := refs_bounds hp r hr
    omega
  hdr := by
    intro r hr
    have hc := fun r' hr' => hdrRefs_clear h.headers _ r' (hp.fields ▸ hr') r (hp.fields ▸ hr)
    rw [of_setupHeaders r.name _ _ (fun r' hr' => ⟨(hc r' hr').1, (hc r' hr').2.2.1⟩),
      of_setupHeaders r.value _ _ (fun r' hr' => ⟨(hc r' hr').2.1, (hc r' hr').2.2.2⟩)]
    exact hb.hdr r hr
  other := by
    intro s hs
    rw [of_setupHeaders]
    · exact hb.other s hs
    · intro r hr
      have := refs_bounds hp r hr
      unfold Clear; omega

theorem HeadBuf.append {h : ReqHead} {p : Parser} (hp : IsHeadParser h p) {tail buf : Bytes} (hb : HeadBuf h p tail buf)
    (more : Bytes) : HeadBuf h p (tail ++ more) (buf ++ more) where
  len := by have := hb.len; simp at *; omega
  drop := by
    have hl := hb.len
    rw [List.drop_append_of_le_length (by rw [hl, hp.bodyStart]; simp), hb.drop]
  hdr := by
    intro r hr
    have hbd := refs_bounds hp r hr
    have hl := hb.len
    have hbs := hp.bodyStart
    simp at hl
    have key : ∀ s : Slice, s.start + s.len ≤ p.bodyStart → s.of (buf ++ more) = s.of buf ∧
        s.of (h.render ++ (tail ++ more)) = s.of (h.render ++ tail) := by
      intro s hs
      unfold Slice.of
      constructor
      · rw [List.drop_append_of_le_length (by omega), List.take_append_of_le_length (by simp; omega)]
      · rw [← List.append_assoc, List.drop_append_of_le_length (by simp; omega),
          List.take_append_of_le_length (by simp; omega)]
    have h1 := key r.name (by omega)
    have h2 := key r.value (by omega)
    rw [h1.1, h1.2, h2.1, h2.2]
    exact hb.hdr r hr
  other := by
    intro s hs
    have hl := hb.len
    have hbs := hp.bodyStart
    have hrl := render_length h
    simp at hl
    have : s.of (buf ++ more) = s.of buf ∧ s.of (h.render ++ (tail ++ more)) = s.of (h.render ++ tail) := by
      unfold Slice.of
      constructor
      · rw [List.drop_append_of_le_length (by omega), List.take_append_of_le_length (by simp; omega)]
      · rw [← List.append_assoc, List.drop_append_of_le_length (by simp; omega),
          List.take_append_of_le_length (by simp; omega)]
    rw [this.1, this.2]
    exact hb.other s hs

theorem HeadBuf.view {h : ReqHead} {p : Parser} (hp : IsHeadParser h p) {tail buf : Bytes} (hb : HeadBuf h p tail buf) :
    viewHeaders buf p.fields = h.headers.map fun l => ⟨l.name, l.value⟩ := by
  have ht := (hp.texts tail).2.2.2.2.2.2.1
  have : viewHeaders buf p.fields = (fieldTexts p (h.render ++ tail)).map fun f => ⟨f.1, f.2⟩ := by
    unfold viewHeaders fieldTexts
    rw [List.map_map]
    apply List.map_congr_left
    intro r hr
    simp only [Function.comp]
    rw [(hb.hdr r hr).1, (hb.hdr r hr).2]
  rw [this, ht, List.map_map]
  rfl

/-! ### the prepared request -/

/-- Positions of the request line slices, as one fact usable by `omega`. -/
theorem of_set_end (buf : Bytes) (a l : Nat) (h : a + l < buf.length) :
    (⟨a, l + 1⟩ : Slice).of (buf.set (a + l) 0) = (⟨a, l⟩ : Slice).of buf ++ [0] := by
  unfold Slice.of
  simp only
  rw [List.drop_set, if_neg (by omega), Nat.add_sub_cancel_left, List.take_succ_eq_append_getElem (by simp; omega)]
  congr 1
  · exact List.take_set_of_le (Nat.le_refl _)
  · simp

theorem prepareFields_length (p : Parser) (buf : Bytes) : (prepareFields p buf).1.length = buf.length := by
  unfold prepareFields
  split <;> rename_i heq <;> split at heq <;> cases heq <;> simp [nulTerm_length]

theorem prepareFields_drop {p : Parser} (buf : Bytes) (n : Nat) (hf : FieldsBefore p n) :
    (prepareFields p buf).1.drop n = buf.drop n := by
  unfold prepareFields
  split
  rename_i heq
  have key : ∀ b : Bytes, (nulTerm (nulTerm (nulTerm (nulTerm (nulTerm b p.method) p.fragment) p.path) p.query) p.version).drop n
      = b.drop n := by
    intro b
    rw [nulTerm_drop _ _ _ hf.version, nulTerm_drop _ _ _ hf.query, nulTerm_drop _ _ _ hf.path,
      nulTerm_drop _ _ _ hf.fragment, nulTerm_drop _ _ _ hf.method]
  split at heq
  · cases heq
    simp only
    rw [key, nulTerm_drop _ _ _ hf.uri]
  · cases heq
    exact key _

theorem of_of_drop {buf buf' : Bytes} {n : Nat} (h : buf.drop n = buf'.drop n) (s : Slice) (hs : n ≤ s.start) :
    s.of buf = s.of buf' := by
  unfold Slice.of
  have : ∀ b : Bytes, b.drop s.start = (b.drop n).drop (s.start - n) := by
    intro b; rw [List.drop_drop]; congr 1; omega
  rw [this buf, this buf', h]

/-- The uri shown. -/
def shownUri : Target → Bytes
  | .origin path (some []) => path ++ [0]
  | t => t.uri

theorem shownUri_bug (path : Bytes) : shownUri (.origin path (some [])) = path ++ [0] := rfl
theorem shownUri_ok {t : Target} (h : ¬ ∃ path, t = .origin path (some [])) : shownUri t = t.uri := by
  unfold shownUri
  split
  · exact absurd ⟨_, rfl⟩ h
  · rfl

/-- Bug-free case or not, this is what the accessors show. -/
theorem requestView_eq {h : ReqHead} (hw : h.Wf) {p : Parser} (hp : IsHeadParser h p) {tail buf : Bytes} (hb : HeadBuf h p tail buf)
    (n : Nat) : requestView p p.fields (prepareFields p buf).1 (prepareFields p buf).2 n = h.shown (tail.take n) := by
  have hfb := fields_before hp
  have hpd := prepareFields_drop buf (hdrStart h) hfb
  have hpl := prepareFields_length p buf
  obtain ⟨t1, t2, t3, t4, t5, t6, t7, t8⟩ := hp.texts tail
  have hrl := render_length h
  -- header and content views only depend on the bytes from the header lines on
  have hhdr : viewHeaders (prepareFields p buf).1 p.fields = h.headers.map fun l => ⟨l.name, l.value⟩ := by
    rw [← hb.view hp]
    unfold viewHeaders
    apply List.map_congr_left
    intro r hr
    have := refs_bounds hp r hr
    rw [of_of_drop hpd r.name (by omega), of_of_drop hpd r.value (by omega)]
  have hcont : (⟨p.bodyStart, n⟩ : Slice).of (prepareFields p buf).1 = tail.take n := by
    rw [of_of_drop hpd ⟨p.bodyStart, n⟩ (by simp [hp.bodyStart]; omega)]
    unfold Slice.of
    simp only
    rw [hb.drop]
  -- request line
  have ho := hb.other
  have hlen : h.render.length ≤ buf.length := by rw [hb.len]; simp
  have e1 : p.method.of buf = h.method := (ho _ (by have := hfb.method; omega)).trans t1
  have e2 : p.uri.of buf = h.target.uri := (ho _ (by have := hfb.uri; omega)).trans t2
  have e3 : p.path.of buf = h.target.path := (ho _ (by have := hfb.path; omega)).trans t3
  have e4 : p.query.of buf = h.target.query := (ho _ (by have := hfb.query; omega)).trans t4
  have e5 : p.fragment.of buf = h.fragment.getD [] := (ho _ (by have := hfb.fragment; omega)).trans t5
  have e6 : p.version.of buf = h.version := (ho _ (by have := hfb.version; omega)).trans t6
  obtain ⟨-, -, c3, c4, c5, c6, c7, c8, -⟩ := hp
  -- positions
  have hfr : p.fragment.len = 0 ∧ p.fragment.start = 0 ∨
      (p.fragment.start = h.method.length + 1 + h.target.uri.length + 1 ∧
       (fragText h.fragment).length = p.fragment.len + 1) := by
    rw [c7]
    cases hf : h.fragment with
    | none => left; simp
    | some x => right; simp [fragText]
  have hqp : (p.path = ⟨0, 0⟩ ∧ p.query = ⟨0, 0⟩) ∨
      ∃ path, h.target = .origin path none ∧ h.target.uri.length = path.length ∧
        p.path = ⟨h.method.length + 1, path.length⟩ ∧ p.query = ⟨0, 0⟩ ∨
      ∃ path q, h.target = .origin path (some q) ∧ h.target.uri.length = path.length + 1 + q.length ∧
        p.path = ⟨h.method.length + 1, path.length⟩ ∧ p.query = ⟨h.method.length + 1 + path.length + 1, q.length⟩ := by
    rw [c5, c6]
    cases ht : h.target with
    | origin path q =>
      right
      cases q with
      | none => exact ⟨path, .inl ⟨rfl, by simp [Target.uri], rfl, rfl⟩⟩
      | some q => exact ⟨path, .inr ⟨path, q, rfl, by simp [Target.uri]; omega, rfl, rfl⟩⟩
    | _ => left; exact ⟨rfl, rfl⟩
  have c3s : p.method.start = 0 := by rw [c3]
  have c3l : p.method.len = h.method.length := by rw [c3]
  have c4s : p.uri.start = h.method.length + 1 := by rw [c4]
  have c4l : p.uri.len = h.target.uri.length := by rw [c4]
  have c8s : p.version.start = h.method.length + 1 + h.target.uri.length + (fragText h.fragment).length + 1 := by rw [c8]
  have c8l : p.version.len = h.version.length := by rw [c8]
  have hqs : (p.path.len = 0 ∧ p.path.start = 0 ∧ p.query.len = 0 ∧ p.query.start = 0) ∨
      (p.path.start = h.method.length + 1 ∧ p.path.len = h.target.uri.length ∧ p.query.len = 0 ∧ p.query.start = 0) ∨
      (p.path.start = h.method.length + 1 ∧ p.path.len + 1 + p.query.len = h.target.uri.length ∧
        p.query.start = h.method.length + 1 + p.path.len + 1) := by
    rcases hqp with ⟨hqp1, hqp2⟩ | ⟨path, ⟨_, hl, hqp1, hqp2⟩ | ⟨path, q, _, hl, hqp1, hqp2⟩⟩ <;>
      simp only [hqp1, hqp2, true_and, and_true, true_or, or_true] <;> omega
  have hsh : h.shown (tail.take n) = { h.view (tail.take n) with uri := shownUri h.target } := by
    unfold ReqHead.shown shownUri
    split <;> simp_all [ReqHead.view]
  rw [hsh]
  unfold requestView
  have fin : ∀ (m u f pa q v : Bytes) (hd : Headers) (ct u' : Bytes), m = h.method → u = u' → f = h.fragment.getD [] →
      pa = h.target.path → q = h.target.query → v = h.version → hd = (h.headers.map fun l => ⟨l.name, l.value⟩) →
      ct = tail.take n → (⟨m, u, f, pa, q, v, hd, ct⟩ : ReqView) = { h.view (tail.take n) with uri := u' } := by
    intros; subst_vars; rfl
  apply fin
  case _ =>
    rw [← e1]; unfold prepareFields
    split; rename_i heq; split at heq <;> cases heq <;> simp only
    · rw [of_nulTerm, of_nulTerm, of_nulTerm, of_nulTerm, of_nulTerm, of_nulTerm]
      all_goals (simp only [Clear]; omega)
    · rw [of_nulTerm, of_nulTerm, of_nulTerm, of_nulTerm, of_nulTerm]
      all_goals (simp only [Clear]; omega)
  case _ =>
    by_cases hq : p.query.len = 0
    · have hpf : prepareFields p buf = (nulTerm (nulTerm (nulTerm (nulTerm (nulTerm (nulTerm buf p.uri) p.method) p.fragment)
          p.path) p.query) p.version, none) := by simp [prepareFields, hq]
      rw [hpf]
      simp only [Option.getD_none]
      by_cases hbug : ∃ path, h.target = .origin path (some [])
      · obtain ⟨path, ht⟩ := hbug
        have hsu : shownUri h.target = path ++ [0] := by rw [ht]; rfl
        rw [hsu]
        have c5' : p.path = ⟨h.method.length + 1, path.length⟩ := by rw [c5, ht]
        have c6' : p.query = ⟨h.method.length + 1 + path.length + 1, 0⟩ := by rw [c6, ht]; simp
        have hul : h.target.uri.length = path.length + 1 := by rw [ht]; simp [Target.uri]
        have hv : Clear p.version p.uri ∧ Clear p.query p.uri := by
          simp only [Clear, c8, c4, c6', hul]; omega
        rw [of_nulTerm _ hv.1, of_nulTerm _ hv.2]
        have hpe : h.target.path = path := by rw [ht]; rfl
        by_cases hpl0 : path.length = 0
        · -- an empty path does not occur (it starts with `/`), but then the view still ends in whatever follows
          exfalso
          have : p.path.len = 0 := by rw [c5']; exact hpl0
          have hwf : path = [] := by simpa using hpl0
          have := hw.target
          rw [ht, hwf] at this
          obtain ⟨⟨_, h0, _⟩, _⟩ := this
          cases h0
        · have : nulTerm (nulTerm (nulTerm (nulTerm buf p.uri) p.method) p.fragment) p.path
              = (nulTerm (nulTerm (nulTerm buf p.uri) p.method) p.fragment).set (h.method.length + 1 + path.length) 0 := by
            unfold nulTerm; rw [c5']; simp [hpl0]
          rw [this, c4, hul, of_set_end]
          · rw [← c5', of_nulTerm, of_nulTerm, of_nulTerm, e3, hpe]
            all_goals (simp only [Clear]; omega)
          · rw [nulTerm_length, nulTerm_length, nulTerm_length]
            unfold hdrStart at hrl
            omega
      · rw [shownUri_ok hbug, ← e2]
        rcases hqp with ⟨hqp1, hqp2⟩ | ⟨path, ⟨_, hl, hqp1, hqp2⟩ | ⟨path, q, ht, hl, hqp1, hqp2⟩⟩
        · rw [of_nulTerm, of_nulTerm, of_nulTerm, of_nulTerm, of_nulTerm, of_nulTerm]
          all_goals (simp only [Clear, c3, c4, c8, hqp1, hqp2]; omega)
        · rw [of_nulTerm, of_nulTerm, of_nulTerm, of_nulTerm, of_nulTerm, of_nulTerm]
          all_goals (simp only [Clear, c3, c4, c8, hqp1, hqp2]; omega)
        · exfalso
          rw [hqp2] at hq
          have : q = [] := by simpa using hq
          subst this
          exact hbug ⟨path, ht⟩
    · have hpf : (prepareFields p buf).2 = some (p.uri.of buf) := by simp [prepareFields, hq]
      rw [hpf, shownUri_ok]
      · exact e2
      · rintro ⟨path, ht⟩
        rw [c6, ht] at hq
        exact hq rfl
  case _ =>
    rw [← e5]; unfold prepareFields
    split; rename_i heq; split at heq <;> cases heq <;> simp only
    · rw [of_nulTerm, of_nulTerm, of_nulTerm, of_nulTerm, of_nulTerm, of_nulTerm]
      all_goals (simp only [Clear]; omega)
    · rw [of_nulTerm, of_nulTerm, of_nulTerm, of_nulTerm, of_nulTerm]
      all_goals (simp only [Clear]; omega)
  case _ =>
    rw [← e3]; unfold prepareFields
    split; rename_i heq; split at heq <;> cases heq <;> simp only
    · rw [of_nulTerm, of_nulTerm, of_nulTerm, of_nulTerm, of_nulTerm, of_nulTerm]
      all_goals (simp only [Clear]; omega)
    · rw [of_nulTerm, of_nulTerm, of_nulTerm, of_nulTerm, of_nulTerm]
      all_goals (simp only [Clear]; omega)
  case _ =>
    rw [← e4]; unfold prepareFields
    split; rename_i heq; split at heq <;> cases heq <;> simp only
    · rw [of_nulTerm, of_nulTerm, of_nulTerm, of_nulTerm, of_nulTerm, of_nulTerm]
      all_goals (simp only [Clear]; omega)
    · rw [of_nulTerm, of_nulTerm, of_nulTerm, of_nulTerm, of_nulTerm]
      all_goals (simp only [Clear]; omega)
  case _ =>
    rw [← e6]; unfold prepareFields
    split; rename_i heq; split at heq <;> cases heq <;> simp only
    · rw [of_nulTerm, of_nulTerm, of_nulTerm, of_nulTerm, of_nulTerm, of_nulTerm]
      all_goals (simp only [Clear]; omega)
    · rw [of_nulTerm, of_nulTerm, of_nulTerm, of_nulTerm, of_nulTerm]
      all_goals (simp only [Clear]; omega)
  case _ => exact hhdr
  case _ => exact hcont

end Pillow
