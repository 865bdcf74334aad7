import Verif.Lemmas.ThinSeg
set_option linter.unusedSimpArgs false
/-!
# What a parse of a buffer from its start can end in
-/
namespace Pillow
open Spec

theorem act_fields (p : Nat) (acts : List Act) : ∀ s : Parser, s.fields <+: (acts.foldl (Parser.act p) s).fields := by
  induction acts with
  | nil => intro s; exact List.prefix_refl _
  | cons a acts ih =>
    intro s
    rw [List.foldl_cons]
    refine List.IsPrefix.trans ?_ (ih _)
    cases a <;> simp [Parser.act]

theorem run_fields : ∀ (bs : Bytes) (s : Parser) (p : Nat), s.fields <+: (s.run p bs).1.fields := by
  intro bs
  induction bs with
  | nil => intro s p; exact List.prefix_refl _
  | cons b bs ih =>
    intro s p
    simp only [Parser.run]
    cases ht : tr s.cs b with
    | none => exact List.prefix_refl _
    | some x =>
      obtain ⟨acts, k⟩ := x
      simp only
      have ha := act_fields p acts s
      split
      · exact ha
      · exact ha.trans (ih { acts.foldl (Parser.act p) s with cs := k } (p + 1))

theorem execute_fields (s : Parser) (buf : Bytes) (off : Nat) : s.fields <+: (s.execute buf off).fields := by
  unfold Parser.execute
  have := run_fields (buf.drop off) s off
  simp only
  repeat' split
  all_goals first
    | exact List.prefix_refl _
    | exact this

/-- A fresh parse that neither failed nor finished. -/
def Live (s0 : Parser) (buf : Bytes) : Prop := (s0.init.run 0 buf).1.cs ≠ 0 ∧ (s0.init.run 0 buf).1.cs ≠ 58

theorem live_nil (s0 : Parser) : Live s0 [] := by simp [Live, Parser.run, init_cs]

theorem exec_cs (s0 : Parser) (buf : Bytes) : (s0.init.execute buf 0).cs = (s0.init.run 0 buf).1.cs := by
  rw [execute_live s0.init buf 0 (by simp [init_cs]) (by simp [init_cs]) rfl]
  rfl

theorem run58_iff (s0 : Parser) (buf : Bytes) :
    (s0.init.run 0 buf).1.cs = 58 ↔ ∃ h rest, ReqHead.Wf h ∧ buf = h.render ++ rest := by
  rw [run_fin_iff _ _ _ (by simp [init_cs]), init_cs]
  constructor
  · intro h
    obtain ⟨r, hr⟩ := Option.isSome_iff_exists.1 h
    obtain ⟨hd, h1, h2⟩ := runCs_sound buf r hr
    exact ⟨hd, r, h1, h2⟩
  · rintro ⟨h, rest, hw, rfl⟩
    obtain ⟨p, hp, hh, _⟩ := run_complete s0 h hw rest
    have := (run_fin_iff s0.init 0 (h.render ++ rest) (by simp [init_cs])).1 (by rw [hp]; exact hh.cs)
    simpa [init_cs] using this

/-- A live parse has seen a proper prefix of some head. -/
theorem live_prefix (s0 : Parser) (buf : Bytes) (h : Live s0 buf) : ∃ hd : ReqHead, hd.Wf ∧ buf <+: hd.render := by
  have hr := run_range buf s0.init 0 (by simp [init_cs])
  have hc : (s0.init.run 0 (buf ++ completion (s0.init.run 0 buf).1.cs)).1.cs = 58 := by
    rw [run_append _ _ _ _ (by simp [init_cs]), if_neg (by rintro (e | e); exact h.1 e; exact h.2 e),
      run_fin_iff _ _ _ h.2, completion_ok _ (by have := h.2; omega) h.1]
    rfl
  obtain ⟨hd, rest, hw, he⟩ := (run58_iff s0 _).1 hc
  refine ⟨hd, hw, ?_⟩
  have : ¬ hd.render <+: buf := by
    rintro ⟨t, ht⟩
    exact h.2 ((run58_iff s0 buf).2 ⟨hd, t, hw, ht.symm⟩)
  rcases Nat.le_total buf.length hd.render.length with hl | hl
  · exact List.prefix_of_prefix_length_le (l₃ := hd.render ++ rest) (he ▸ List.prefix_append _ _) (List.prefix_append _ _) hl
  · exact absurd (List.prefix_of_prefix_length_le (l₃ := hd.render ++ rest) (List.prefix_append _ _) (he ▸ List.prefix_append _ _) hl) this

theorem live_no_head (s0 : Parser) (buf : Bytes) (h : Live s0 buf) (hd : ReqHead) (hw : hd.Wf) : ¬ hd.render <+: buf := by
  rintro ⟨t, ht⟩
  exact h.2 ((run58_iff s0 buf).2 ⟨hd, t, hw, ht.symm⟩)

theorem failed_no_head (s0 : Parser) (buf : Bytes) (h : (s0.init.run 0 buf).1.cs = 0) (hd : ReqHead) (hw : hd.Wf) :
    ¬ hd.render <+: buf ∧ ¬ buf <+: hd.render := by
  constructor
  · rintro ⟨t, ht⟩
    have := (run58_iff s0 buf).2 ⟨hd, t, hw, ht.symm⟩
    omega
  · rintro ⟨t, ht⟩
    have := (run58_iff s0 (buf ++ t)).2 ⟨hd, [], hw, by simp [ht]⟩
    rw [run_append _ _ _ _ (by simp [init_cs]), if_pos (.inl h)] at this
    omega

theorem finished_parser (s0 : Parser) (h : ReqHead) (hw : h.Wf) (rest : Bytes) :
    IsHeadParser h (s0.init.execute (h.render ++ rest) 0) ∧ (s0.init.execute (h.render ++ rest) 0).nread = h.render.length + 1 := by
  obtain ⟨q, hq, hh, hn⟩ := run_complete s0 h hw rest
  have hp : s0.init.execute (h.render ++ rest) 0 = { q with nread := h.render.length + 1 } := by
    rw [execute_live s0.init _ 0 (by simp [init_cs]) (by simp [init_cs]) rfl]
    have hq' : s0.init.run 0 (List.drop 0 (h.render ++ rest)) = (q, h.render.length) := hq
    rw [hq']
    have i0 : s0.init.nread = 0 := rfl
    simp [hh.cs, i0]
  rw [hp]
  exact ⟨⟨hh.cs, hh.bodyStart, hh.method, hh.uri, hh.path, hh.query, hh.fragment, hh.version, hh.fields⟩, rfl⟩

/-- Trichotomy. -/
theorem parse_cases (s0 : Parser) (buf : Bytes) :
    ((s0.init.execute buf 0).cs = 0 ∧ ∀ h : ReqHead, h.Wf → ¬ h.render <+: buf ∧ ¬ buf <+: h.render) ∨
    (∃ h rest, ReqHead.Wf h ∧ buf = h.render ++ rest ∧ IsHeadParser h (s0.init.execute buf 0) ∧
      (s0.init.execute buf 0).nread = h.render.length + 1) ∨
    (Live s0 buf ∧ (s0.init.execute buf 0).cs ≠ 0 ∧ (s0.init.execute buf 0).cs ≠ 58 ∧
      (s0.init.execute buf 0).nread = buf.length) := by
  by_cases h0 : (s0.init.run 0 buf).1.cs = 0
  · left; exact ⟨(exec_cs s0 buf).trans h0, failed_no_head s0 buf h0⟩
  · right
    by_cases h58 : (s0.init.run 0 buf).1.cs = 58
    · left
      obtain ⟨h, rest, hw, rfl⟩ := (run58_iff s0 buf).1 h58
      exact ⟨h, rest, hw, rfl, finished_parser s0 h hw rest⟩
    · right
      refine ⟨⟨h0, h58⟩, ?_, ?_, ?_⟩
      · rw [exec_cs]; exact h0
      · rw [exec_cs]; exact h58
      · rw [nread_live s0 buf h0 h58]

/-- Resuming a live parse of a prefix. -/
theorem resume_take (s0 : Parser) (buf : Bytes) (n : Nat) (hl : Live s0 (buf.take n)) :
    (s0.init.execute (buf.take n) 0).execute buf (s0.init.execute (buf.take n) 0).nread = s0.init.execute buf 0 := by
  have := execute_resume s0 (buf.take n) (buf.drop n) hl.1 hl.2
  rwa [List.take_append_drop] at this

end Pillow
