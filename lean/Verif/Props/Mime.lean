import Verif.Spec.Mime
import Verif.Props.File
set_option linter.unusedSimpArgs false
/-!
# C74: what a file is declared to be
-/
namespace Pillow.Props
open Pillow Pillow.Spec

theorem lower_dot (b : Byte) : lower b = lower 46 ↔ b = 46 := by revert b; apply byte_forall; decide +kernel

theorem endsWith_iff (f ext : Bytes) : endsWithCI f (46 :: ext) = true ↔ Extended f ext := by
  unfold endsWithCI
  rw [Bool.and_eq_true, asciiEqualsCI_iff, decide_eq_true_eq]
  constructor
  · rintro ⟨h1, h2⟩
    have e := (List.take_append_drop (f.length - (46 :: ext).length) f).symm
    generalize List.take (f.length - (46 :: ext).length) f = base at e
    generalize List.drop (f.length - (46 :: ext).length) f = tail at e h2
    cases tail with
    | nil => simp [SameCI] at h2
    | cons c t =>
      simp only [SameCI, List.map_cons, List.cons.injEq] at h2
      rw [lower_dot] at h2
      obtain ⟨rfl, h2⟩ := h2
      exact ⟨base, t, by rw [e]; simp, h2⟩
  · rintro ⟨base, e, rfl, h⟩
    have hl : e.length = ext.length := by simpa using congrArg List.length h
    refine ⟨by simp [hl], ?_⟩
    rw [show (base ++ b!"." ++ e).length - (46 :: ext).length = base.length by simp [hl], List.append_assoc, List.drop_left]
    simp only [SameCI, List.map_cons, List.cons_append, List.nil_append] at h ⊢
    rw [h]

theorem after_last_dot : ∀ (a b x y : Bytes), a ++ 46 :: x = b ++ 46 :: y → 46 ∉ x → 46 ∉ y → x = y
  | [], [], x, y, h, _, _ => by simpa using h
  | [], c :: b, x, y, h, hx, _ => by
    simp only [List.nil_append, List.cons_append, List.cons.injEq] at h
    exact absurd (by rw [h.2]; simp) hx
  | c :: a, [], x, y, h, _, hy => by
    simp only [List.nil_append, List.cons_append, List.cons.injEq] at h
    exact absurd (by rw [← h.2]; simp) hy
  | c :: a, d :: b, x, y, h, hx, hy => by
    simp only [List.cons_append, List.cons.injEq] at h
    exact after_last_dot a b x y h.2 hx hy

theorem media_no_dot : ∀ x ∈ mediaTypes, 46 ∉ x.1 := by decide +kernel
theorem media_unique : ∀ x ∈ mediaTypes, ∀ y ∈ mediaTypes, SameCI x.1 y.1 → x = y := by decide +kernel

theorem ext_no_dot {e ext : Bytes} (h : SameCI e ext) (hd : 46 ∉ ext) : 46 ∉ e := by
  intro hm
  have : lower 46 ∈ ext.map lower := by rw [← show e.map lower = ext.map lower from h]; exact List.mem_map_of_mem hm
  obtain ⟨b, h1, h2⟩ := List.mem_map.1 this
  rw [lower_dot] at h2
  subst h2; exact hd h1

theorem extended_unique {f : Bytes} {x y : Bytes × Bytes} (hx : x ∈ mediaTypes) (hy : y ∈ mediaTypes) (h1 : Extended f x.1) (h2 : Extended f y.1) : x = y := by
  obtain ⟨a, e1, k1, s1⟩ := h1
  obtain ⟨b, e2, k2, s2⟩ := h2
  rw [k1, List.append_assoc, List.append_assoc] at k2
  have := after_last_dot a b e1 e2 k2 (ext_no_dot s1 (media_no_dot x hx)) (ext_no_dot s2 (media_no_dot y hy))
  subst this
  exact media_unique x hx y hy (s1.symm.trans s2)

/-- C74: the type of a file is determined by its name, and it is the one `getMimeTypeForFilename` gives. -/
theorem C74_type (name type : Bytes) : HasType name type ↔ getMimeTypeForFilename name = type := by
  have unique : ∀ t t', HasType name t → HasType name t' → t = t' := by
    rintro t t' (⟨e, h1, h2⟩ | ⟨rfl, h2⟩) (⟨e', h1', h2'⟩ | ⟨rfl, h2'⟩)
    · have := extended_unique h1 h1' h2 h2'
      exact (Prod.mk.inj this).2
    · exact absurd h2 (h2' _ h1)
    · exact absurd h2' (h2 _ h1')
    · rfl
  have has : HasType name (getMimeTypeForFilename name) := by
    have w1 : endsWithCI name b!".html" = true ↔ Extended name b!"html" := endsWith_iff _ _
    have w2 : endsWithCI name b!".jpg" = true ↔ Extended name b!"jpg" := endsWith_iff _ _
    have w3 : endsWithCI name b!".jpeg" = true ↔ Extended name b!"jpeg" := endsWith_iff _ _
    have w4 : endsWithCI name b!".png" = true ↔ Extended name b!"png" := endsWith_iff _ _
    have w5 : endsWithCI name b!".gif" = true ↔ Extended name b!"gif" := endsWith_iff _ _
    have w6 : endsWithCI name b!".css" = true ↔ Extended name b!"css" := endsWith_iff _ _
    have w7 : endsWithCI name b!".js" = true ↔ Extended name b!"js" := endsWith_iff _ _
    have w8 : endsWithCI name b!".xml" = true ↔ Extended name b!"xml" := endsWith_iff _ _
    unfold getMimeTypeForFilename
    repeat' split
    all_goals simp only [w1, w2, w3, w4, w5, w6, w7, w8] at *
    · exact .inl ⟨b!"html", by decide, by assumption⟩
    · exact .inl ⟨b!"jpg", by decide, by assumption⟩
    · exact .inl ⟨b!"jpeg", by decide, by assumption⟩
    · exact .inl ⟨b!"png", by decide, by assumption⟩
    · exact .inl ⟨b!"gif", by decide, by assumption⟩
    · exact .inl ⟨b!"css", by decide, by assumption⟩
    · exact .inl ⟨b!"js", by decide, by assumption⟩
    · exact .inl ⟨b!"xml", by decide, by assumption⟩
    refine .inr ⟨rfl, ?_⟩
    intro x hx
    simp only [mediaTypes, List.mem_cons, List.not_mem_nil, or_false] at hx
    rcases hx with rfl | rfl | rfl | rfl | rfl | rfl | rfl | rfl <;> assumption
  exact ⟨fun h => unique _ _ has h, fun h => h ▸ has⟩

/-- C74: whenever the file handler answers with the content of a file (at once, or beginning a transfer), the one `Content-Type` it declares is the type of the name asked for. -/
theorem C74_declared (fs : FileSystem) (dec md5 text : Bytes → Bytes) (pub : Bytes) (bufferSize : Nat) (r : ReqView) (hs : Headers)
    (h : (∃ ct, fileHandle fs dec md5 text pub bufferSize r = .answer (.writeResponse 200 hs ct)) ∨
      (∃ ct n, fileHandle fs dec md5 text pub bufferSize r = .transfer (.writeHeaders 200 hs) ct n)) :
    ∃ t, HasType (dec r.path) t ∧ (hs.filter fun x => decide (SameCI x.name b!"content-type")) = [⟨b!"Content-Type", t⟩] := by
  refine ⟨_, (C74_type _ _).2 rfl, ?_⟩
  have e1 : decide (SameCI b!"Content-Type" b!"content-type") = true := by decide +kernel
  have e2 : decide (SameCI b!"ETag" b!"content-type") = false := by decide +kernel
  have e3 : decide (SameCI b!"Content-Length" b!"content-type") = false := by decide +kernel
  unfold fileHandle at h
  dsimp only at h
  rcases h with ⟨ct, h⟩ | ⟨ct, n, h⟩
  · repeat' split at h
    all_goals first | (cases h; done) | (injection h with h; injection h with h1 h2 h3; first | omega | (rw [← h2]; simp only [List.filter_cons, List.filter_nil, e1, e2, if_true, Bool.false_eq_true, if_false]))
  · repeat' split at h
    all_goals first | (cases h; done) | (injection h with h; injection h with h1 h2; rw [← h2]; simp only [List.filter_cons, List.filter_nil, e1, e3, if_true, Bool.false_eq_true, if_false])

/-- C74, what is sent: a response head with such headers has the line with this type. -/
theorem C74_sent (s : Conf) (hr : Reach Proper s) (a b : List Ev) (h : RespHead) (e : s.c.log = a ++ .head h :: b) (r : ReqView) (hreq : (readys a).getLast? = some r) (t : Bytes)
    (ht : (h.headers.filter fun x => decide (SameCI x.name b!"content-type")) = [⟨b!"Content-Type", t⟩]) :
    ∃ before after, h.bytes = before ++ b!"\r\nContent-Type: " ++ t ++ b!"\r\n" ++ after := by
  obtain ⟨lenIn, -, sp⟩ := head_in_log s hr a b h e r hreq
  obtain ⟨cl, h1, h2⟩ := sp.bytes
  have e2 : typeHeader h.headers h.len = b!"Content-Type: " ++ t ++ b!"\r\n" := by
    unfold typeHeader lastHeader
    rw [ht]
    simp [lineOf]
  have hend : ∃ p, statusLine r h.status ++ otherLines h.headers ++ cl = p ++ b!"\r\n" := by
    have join : ∀ x y : Bytes, (∃ p, x = p ++ b!"\r\n") → (y = [] ∨ ∃ p, y = p ++ b!"\r\n") → ∃ p, x ++ y = p ++ b!"\r\n" := by
      rintro x y hx (rfl | ⟨p, rfl⟩)
      · simpa using hx
      · exact ⟨x ++ p, by simp⟩
    refine join _ _ (join _ _ ⟨_, rfl⟩ ?_) ?_
    · unfold otherLines
      rcases List.eq_nil_or_concat (h.headers.filter fun h => !decide (Special h)) with k | ⟨l, x, k⟩
      · rw [k]; exact .inl rfl
      · rw [k]; exact .inr ⟨(l.map lineOf).flatten ++ (x.name ++ b!": " ++ x.value), by simp [lineOf]⟩
    · unfold lengthLine at h1
      split at h1
      · cases k : appendNumber 32 10 b!"Content-Length: " (truncInt32 h.len) with
        | none => rw [k] at h1; cases h1
        | some x => rw [k] at h1; cases h1; exact .inr ⟨x, rfl⟩
      · cases h1; exact .inl rfl
  obtain ⟨p, hp⟩ := hend
  rw [h2, e2, hp]
  exact ⟨p, connectionHeader r h.keepAlive ++ encodingHeader h.headers h.chunked ++ b!"\r\n", by simp [List.append_assoc]⟩

/-- Concrete names. -/
example : HasType b!"/a.b/Index.HTML" b!"text/html" ∧ HasType b!"/html" b!"application/octet-stream" ∧ HasType b!"/x.tar.gz" b!"application/octet-stream" ∧ ¬ HasType b!"/x.js" b!"text/xml" := by
  simp only [C74_type]; decide +kernel

/-- The hypotheses of `C74_declared` are met by a file that is small and by one that is not. -/
example : (∃ hs ct, fileHandle (demoFs b!"/srv/pub" b!"/f.css" b!"0123456789") id id id b!"/srv/pub" 40 { path := b!"/f.css" } = .answer (.writeResponse 200 hs ct)) ∧
    (∃ hs ct n, fileHandle (demoFs b!"/srv/pub" b!"/f.css" b!"0123456789") id id id b!"/srv/pub" 4 { path := b!"/f.css" } = .transfer (.writeHeaders 200 hs) ct n) :=
  ⟨⟨_, _, rfl⟩, ⟨_, _, _, rfl⟩⟩

end Pillow.Props
