import Verif.Lemmas.ThinSeg
set_option linter.unusedSimpArgs false
/-!
# C09 (request head grammar and fields), and the parser-level part of C08 and C11

The parser object is `Parser`; a fresh parse is `thin_http_parser_init` followed by `thin_http_parser_execute`
over the whole buffer from offset 0.  The grammar is `Spec.ReqHead` (`render`, `Wf`), which does not mention the
parser.
-/
namespace Pillow.Props
open Pillow Pillow.Spec

/-- A fresh parse of a whole buffer. -/
def parseAll (s0 : Parser) (buf : Bytes) : Parser := s0.init.execute buf 0

theorem parseAll_cs (s0 : Parser) (buf : Bytes) : (parseAll s0 buf).cs = (s0.init.run 0 buf).1.cs := by
  unfold parseAll
  rw [execute_live s0.init buf 0 (by simp [init_cs]) (by simp [init_cs]) rfl]
  rfl

/-- C09, acceptance: the parser reports a finished head iff the buffer starts with a well-formed head. -/
theorem C09_accept_iff (s0 : Parser) (buf : Bytes) :
    (parseAll s0 buf).isFinished = true ↔ ∃ h rest, ReqHead.Wf h ∧ buf = h.render ++ rest := by
  unfold Parser.isFinished
  rw [parseAll_cs, beq_iff_eq, run_fin_iff _ _ _ (by simp [init_cs]), init_cs]
  constructor
  · intro h
    obtain ⟨r, hr⟩ := Option.isSome_iff_exists.1 h
    obtain ⟨hd, h1, h2⟩ := runCs_sound buf r hr
    exact ⟨hd, r, h1, h2⟩
  · rintro ⟨h, rest, hw, rfl⟩
    obtain ⟨p, hp, hh, _⟩ := run_complete s0 h hw rest
    have := (run_fin_iff s0.init 0 (h.render ++ rest) (by simp [init_cs])).1 (by rw [hp]; exact hh.cs)
    simpa [init_cs] using this

/-- C09, fields: every accepted head is cut into exactly its pieces, headers in order with duplicates; the
content starts right behind the head. -/
theorem C09_fields (s0 : Parser) (h : ReqHead) (hw : h.Wf) (rest : Bytes) :
    let buf := h.render ++ rest
    let p := parseAll s0 buf
    p.isFinished = true ∧ p.hasError = false ∧
    p.method.of buf = h.method ∧ p.uri.of buf = h.target.uri ∧ p.path.of buf = h.target.path ∧
    p.query.of buf = h.target.query ∧ p.fragment.of buf = h.fragment.getD [] ∧ p.version.of buf = h.version ∧
    fieldTexts p buf = h.headers.map (fun f => (f.name, f.value)) ∧
    p.bodyStart = h.render.length ∧ buf.drop p.bodyStart = rest ∧ p.nread = h.render.length + 1 := by
  intro buf p
  obtain ⟨q, hq, hh, hn⟩ := run_complete s0 h hw rest
  have hp : p = { q with nread := h.render.length + 1 } := by
    show s0.init.execute buf 0 = _
    rw [execute_live s0.init buf 0 (by simp [init_cs]) (by simp [init_cs]) rfl]
    have hq' : s0.init.run 0 (List.drop 0 buf) = (q, h.render.length) := hq
    rw [hq']
    have i0 : s0.init.nread = 0 := rfl
    simp [hh.cs, i0]
  clear_value p
  subst hp
  obtain ⟨t1, t2, t3, t4, t5, t6, t7, t8⟩ := hh.texts rest
  exact ⟨by simp [Parser.isFinished, hh.cs], by simp [Parser.hasError, hh.cs], t1, t2, t3, t4, t5, t6, t7, hh.bodyStart,
    t8, rfl⟩

/-- Acceptance determines the pieces: two readings of the same bytes agree. -/
theorem C09_unique (h h' : ReqHead) (hw : h.Wf) (hw' : h'.Wf) (r r' : Bytes) (e : h.render ++ r = h'.render ++ r') :
    h.render = h'.render ∧ r = r' ∧ h.method = h'.method ∧ h.target.uri = h'.target.uri ∧
    h.target.path = h'.target.path ∧ h.target.query = h'.target.query ∧
    h.fragment.getD [] = h'.fragment.getD [] ∧ h.version = h'.version ∧
    h.headers.map (fun f => (f.name, f.value)) = h'.headers.map (fun f => (f.name, f.value)) := by
  obtain ⟨-, -, a1, a2, a3, a4, a5, a6, a7, a8, a9, -⟩ := C09_fields {} h hw r
  obtain ⟨-, -, b1, b2, b3, b4, b5, b6, b7, b8, b9, -⟩ := C09_fields {} h' hw' r'
  rw [e] at a1 a2 a3 a4 a5 a6 a7 a8 a9
  have hl : h.render.length = h'.render.length := by rw [← a8, ← b8]
  have hr := (List.append_inj e hl)
  exact ⟨hr.1, hr.2, a1.symm.trans b1, a2.symm.trans b2, a3.symm.trans b3, a4.symm.trans b4, a5.symm.trans b5,
    a6.symm.trans b6, a7.symm.trans b7⟩

/-- C11, parser part: the parser reports an error iff what it has seen can no longer be completed to a
well-formed head (and does not already start with one). -/
theorem C11_error_iff (s0 : Parser) (buf : Bytes) :
    (parseAll s0 buf).hasError = true ↔
      ¬ ∃ more h rest, ReqHead.Wf h ∧ buf ++ more = h.render ++ rest := by
  unfold Parser.hasError
  rw [parseAll_cs, beq_iff_eq]
  have happ : ∀ more, (s0.init.run 0 (buf ++ more)).1.cs = 58 ↔ ∃ h rest, ReqHead.Wf h ∧ buf ++ more = h.render ++ rest := by
    intro more
    rw [← C09_accept_iff s0]
    unfold Parser.isFinished
    rw [parseAll_cs, beq_iff_eq]
  have hra := fun more => run_append buf more s0.init 0 (by simp [init_cs])
  constructor
  · rintro h0 ⟨more, h, rest, hw, he⟩
    have := (happ more).2 ⟨h, rest, hw, he⟩
    rw [hra more, if_pos (.inl h0), h0] at this
    exact absurd this (by decide)
  · intro hno
    rcases Nat.eq_zero_or_pos (s0.init.run 0 buf).1.cs with h0 | h0
    · exact h0
    · exfalso
      apply hno
      by_cases h58 : (s0.init.run 0 buf).1.cs = 58
      · refine ⟨[], ?_⟩
        apply (happ []).1
        rw [List.append_nil]; exact h58
      · have hr := run_range buf s0.init 0 (by simp [init_cs])
        refine ⟨completion (s0.init.run 0 buf).1.cs, (happ _).1 ?_⟩
        rw [hra, if_neg (by omega), run_fin_iff _ _ _ h58, completion_ok _ (by omega) (by omega)]
        rfl

/-- What `processInput` does with the parser over successive deliveries: append to the buffer, execute from
`nread`, stop at the first error or completed head (HttpConnection.cpp:157-179). -/
def feed (s : Parser) (buf : Bytes) : List Bytes → Parser
  | [] => s
  | seg :: segs =>
    let s' := if buf ++ seg = [] then s else s.execute (buf ++ seg) s.nread
    if s'.hasError || s'.isFinished then s' else feed s' (buf ++ seg) segs

theorem parseAll_nil (s0 : Parser) : parseAll s0 [] = s0.init := rfl

theorem feed_eq (s0 : Parser) : ∀ (segs : List Bytes) (buf : Bytes),
    (parseAll s0 buf).hasError = false → (parseAll s0 buf).isFinished = false →
    feed (parseAll s0 buf) buf segs = parseAll s0 (buf ++ segs.flatten) := by
  intro segs
  induction segs with
  | nil => intro buf _ _; simp [feed]
  | cons seg segs ih =>
    intro buf h0 h58
    simp only [Parser.hasError, Parser.isFinished, parseAll_cs, beq_eq_false_iff_ne] at h0 h58
    have key : (if buf ++ seg = [] then parseAll s0 buf else (parseAll s0 buf).execute (buf ++ seg) (parseAll s0 buf).nread)
        = parseAll s0 (buf ++ seg) := by
      split
      · rename_i he
        simp at he
        obtain ⟨rfl, rfl⟩ := he; rfl
      · exact execute_resume s0 buf seg h0 h58
    simp only [feed, key]
    by_cases hfin : (parseAll s0 (buf ++ seg)).hasError = true ∨ (parseAll s0 (buf ++ seg)).isFinished = true
    · rw [if_pos (by simpa [Bool.or_eq_true] using hfin)]
      -- nothing behind the stopping point is looked at
      have hst : (s0.init.run 0 (buf ++ seg)).1.cs = 0 ∨ (s0.init.run 0 (buf ++ seg)).1.cs = 58 := by
        simpa [Parser.hasError, Parser.isFinished, parseAll_cs] using hfin
      have := run_append (buf ++ seg) segs.flatten s0.init 0 (by simp [init_cs])
      rw [if_pos hst] at this
      rw [List.flatten_cons, ← List.append_assoc]
      unfold parseAll
      rw [execute_live s0.init _ 0 (by simp [init_cs]) (by simp [init_cs]) rfl,
        execute_live s0.init _ 0 (by simp [init_cs]) (by simp [init_cs]) rfl]
      simp only [List.drop_zero, this]
    · rw [if_neg (by simpa [Bool.or_eq_true] using hfin)]
      rw [ih (buf ++ seg) (by simpa using fun h => hfin (.inl h)) (by simpa using fun h => hfin (.inr h))]
      simp

/-- C08, parser part: however the bytes are cut into deliveries (empty ones included), the parser ends in the same
state, with the same fields, as when it is given everything at once. -/
theorem C08_parser_segmentation (s0 : Parser) (segs : List Bytes) :
    feed s0.init [] segs = parseAll s0 segs.flatten := by
  have := feed_eq s0 segs [] rfl rfl
  simpa [parseAll_nil] using this

/-- Two segmentations of the same bytes. -/
theorem C08_parser_same (s0 : Parser) (segs segs' : List Bytes) (h : segs.flatten = segs'.flatten) :
    feed s0.init [] segs = feed s0.init [] segs' := by
  rw [C08_parser_segmentation, C08_parser_segmentation, h]

/-! ### Instances -/

/-- `GET /a?b=%20#f HTTP/1.1`, two headers with the same name. -/
def exHead : ReqHead :=
  ⟨b!"GET", .origin b!"/a" (some b!"b=%20"), some b!"f", b!"1", b!"1", [⟨b!"Host", 1, b!"x:80"⟩, ⟨b!"A", 0, b!""⟩, ⟨b!"A", 3, b!"q r"⟩]⟩

theorem esc_plain (P : Byte → Prop) : ∀ (t : Bytes), (∀ b ∈ t, P b) → EscText P t
  | [], _ => .nil
  | b :: t, h => .plain b t (h b (by simp)) (esc_plain P t (fun c hc => h c (by simp [hc])))

theorem exHead_wf : exHead.Wf where
  method_len := by decide
  method_chars := by decide
  target := ⟨⟨b!"a", rfl, esc_plain _ _ (by decide)⟩, by
    rintro q ⟨⟩
    exact .plain _ _ (by decide) (.plain _ _ (by decide) (.esc _ _ _ (by decide) (by decide) .nil))⟩
  fragment := by rintro f ⟨⟩; exact esc_plain _ _ (by decide)
  major := by decide
  minor := by decide
  headers := by
    intro h hh
    simp [exHead] at hh
    rcases hh with rfl | rfl | rfl <;> exact ⟨by decide, by decide, by decide, by decide⟩

example : exHead.render = b!"GET /a?b=%20#f HTTP/1.1\r\nHost: x:80\r\nA:\r\nA:   q r\r\n\r\n" := by decide +kernel
example : (parseAll {} (exHead.render ++ b!"body")).isFinished = true := (C09_fields {} exHead exHead_wf _).1
example : (parseAll {} b!"GET / HTTP/x").hasError = true := by decide +kernel
example : feed (Parser.init {}) [] [b!"GE", b!"", b!"T / HT", b!"TP/1.1\r\n\r", b!"\nrest"]
    = parseAll {} b!"GET / HTTP/1.1\r\n\r\nrest" := by decide +kernel

end Pillow.Props
