import Verif.Lemmas.ThinSound
import Verif.Model.ConnPure
set_option linter.unusedSimpArgs false
/-!
# Segmentation, viable prefixes and slices for the head parser
-/
namespace Pillow
open Spec


/-- One transition. -/
def Parser.next (s : Parser) (p : Nat) (acts : List Act) (k : Nat) : Parser :=
  { acts.foldl (Parser.act p) s with cs := k }

theorem Parser.next_cs (s : Parser) (p : Nat) (acts : List Act) (k : Nat) : (s.next p acts k).cs = k := rfl

theorem run_cons {s : Parser} {p : Nat} {b : Byte} {bs : Bytes} {acts : List Act} {k : Nat}
    (h : tr s.cs b = some (acts, k)) : s.run p (b :: bs) =
      if .done ∈ acts then (s.next p acts k, p + 1) else (s.next p acts k).run (p + 1) bs := by
  simp only [Parser.run, h]; rfl

theorem run_append (xs ys : Bytes) : ∀ (s : Parser) (p : Nat), s.cs ≠ 58 →
    s.run p (xs ++ ys) =
      if (s.run p xs).1.cs = 0 ∨ (s.run p xs).1.cs = 58 then s.run p xs
      else (s.run p xs).1.run (p + xs.length) ys := by
  induction xs with
  | nil =>
    intro s p h
    have e : s.run p [] = (s, p) := rfl
    rw [List.nil_append, e]
    show s.run p ys = if s.cs = 0 ∨ s.cs = 58 then (s, p) else s.run p ys
    by_cases h0 : s.cs = 0 ∨ s.cs = 58
    · rw [if_pos h0]
      rcases h0 with h0 | h0
      · cases ys with
        | nil => rfl
        | cons y ys =>
          have : tr s.cs y = none := by rw [h0]; simp [tr]
          simp only [Parser.run, this]
          cases s; simp_all
      · exact absurd h0 h
    · rw [if_neg h0]
  | cons b xs ih =>
    intro s p h
    rw [List.cons_append]
    cases ht : tr s.cs b with
    | none => simp [Parser.run, ht]
    | some x =>
      obtain ⟨acts, k⟩ := x
      have hd := tr_done _ _ _ _ ht
      by_cases hdone : Act.done ∈ acts
      · simp [run_cons ht, hdone, Parser.next_cs, hd.1.1 hdone]
      · have := ih (s.next p acts k) (p + 1) (fun e => hdone (hd.1.2 e))
        simp only [run_cons ht, hdone, ↓reduceIte]
        rw [this]
        simp only [List.length_cons, show p + (xs.length + 1) = p + 1 + xs.length by omega]

/-- Where the machine stops: past the input unless it failed or finished. -/
theorem run_pos : ∀ (bs : Bytes) (s : Parser) (p : Nat), s.cs ≠ 58 →
    (s.run p bs).2 ≤ p + bs.length ∧ p ≤ (s.run p bs).2 ∧
    ((s.run p bs).1.cs ≠ 0 → (s.run p bs).1.cs ≠ 58 → (s.run p bs).2 = p + bs.length) := by
  intro bs
  induction bs with
  | nil => intro s p _; simp [Parser.run]
  | cons b bs ih =>
    intro s p h
    cases ht : tr s.cs b with
    | none => simp [Parser.run, ht]
    | some x =>
      obtain ⟨acts, k⟩ := x
      have hd := tr_done _ _ _ _ ht
      by_cases hdone : Act.done ∈ acts
      · simp [run_cons ht, hdone, Parser.next_cs, hd.1.1 hdone]
      · have := ih (s.next p acts k) (p + 1) (fun e => hdone (hd.1.2 e))
        simp only [run_cons ht, hdone, ↓reduceIte, List.length_cons]
        refine ⟨by omega, by omega, fun h1 h2 => ?_⟩
        have := this.2.2 h1 h2
        omega

theorem act_bodyStart (p : Nat) : ∀ (acts : List Act) (s : Parser), .done ∉ acts →
    (acts.foldl (Parser.act p) s).bodyStart = s.bodyStart ∧ (acts.foldl (Parser.act p) s).nread = s.nread := by
  intro acts
  induction acts with
  | nil => intro s _; exact ⟨rfl, rfl⟩
  | cons a acts ih =>
    intro s h
    simp only [List.mem_cons, not_or] at h
    have := ih (Parser.act p s a) h.2
    simp only [List.foldl_cons, this]
    cases a <;> simp_all [Parser.act]

theorem run_nread : ∀ (bs : Bytes) (s : Parser) (p : Nat), s.cs ≠ 58 → s.bodyStart = 0 →
    (s.run p bs).1.nread = s.nread ∧ ((s.run p bs).1.bodyStart ≠ 0 ↔ (s.run p bs).1.cs = 58) := by
  intro bs
  induction bs with
  | nil => intro s p h hb; simp [Parser.run, h, hb]
  | cons b bs ih =>
    intro s p h hb
    cases ht : tr s.cs b with
    | none => simp [Parser.run, ht, hb]
    | some x =>
      obtain ⟨acts, k⟩ := x
      have hd := tr_done _ _ _ _ ht
      by_cases hdone : Act.done ∈ acts
      · have := hd.2.1 hdone
        obtain ⟨-, -, rfl⟩ := this
        have h58 := hd.1.1 hdone
        simp [Parser.run, ht, Parser.act, h58]
      · have ha := act_bodyStart p acts s hdone
        have := ih { acts.foldl (Parser.act p) s with cs := k } (p + 1) (fun e => hdone (hd.1.2 e)) (by simp [ha, hb])
        simp only [Parser.run, ht, hdone, ↓reduceIte]
        rw [this.1, this.2]
        simp [ha]

theorem tr_range {cs : Nat} {b : Byte} {acts : List Act} {k : Nat} (h : tr cs b = some (acts, k)) :
    1 ≤ k ∧ k ≤ 58 := by
  unfold tr at h
  split at h <;> (try simp only [trOnly, trEsc1, trHex] at h) <;>
    (repeat' split at h) <;> (try contradiction) <;>
    (simp only [Option.some.injEq, Prod.mk.injEq] at h; obtain ⟨rfl, rfl⟩ := h; first | decide | omega)

theorem run_range : ∀ (bs : Bytes) (s : Parser) (p : Nat), s.cs ≤ 58 → (s.run p bs).1.cs ≤ 58 := by
  intro bs
  induction bs with
  | nil => intro s p h; exact h
  | cons b bs ih =>
    intro s p h
    cases ht : tr s.cs b with
    | none => simp [Parser.run, ht]
    | some x =>
      obtain ⟨acts, k⟩ := x
      simp only [Parser.run, ht]
      split
      · exact (tr_range ht).2
      · exact ih _ _ (tr_range ht).2

/-- A text that completes a head from each live state of the machine. -/
def completion (cs : Nat) : Bytes :=
  if cs = 1 then b!"G / HTTP/1.1\r\n\r\n" else
  if cs = 2 ∨ 39 ≤ cs then b!" / HTTP/1.1\r\n\r\n" else
  if cs = 3 then b!"/ HTTP/1.1\r\n\r\n" else
  if cs = 4 ∨ cs = 20 ∨ cs = 21 ∨ cs = 26 ∨ cs = 30 ∨ cs = 34 ∨ cs = 35 then b!" HTTP/1.1\r\n\r\n" else
  if cs = 22 ∨ cs = 24 ∨ cs = 27 ∨ cs = 29 ∨ cs = 31 ∨ cs = 33 ∨ cs = 36 ∨ cs = 38 then b!"00 HTTP/1.1\r\n\r\n" else
  if cs = 23 ∨ cs = 28 ∨ cs = 32 ∨ cs = 37 then b!"0 HTTP/1.1\r\n\r\n" else
  if cs = 25 then b!": HTTP/1.1\r\n\r\n" else
  if cs = 5 then b!"HTTP/1.1\r\n\r\n" else
  if cs = 6 then b!"TTP/1.1\r\n\r\n" else
  if cs = 7 then b!"TP/1.1\r\n\r\n" else
  if cs = 8 then b!"P/1.1\r\n\r\n" else
  if cs = 9 then b!"/1.1\r\n\r\n" else
  if cs = 10 then b!"1.1\r\n\r\n" else
  if cs = 11 then b!".1\r\n\r\n" else
  if cs = 12 then b!"1\r\n\r\n" else
  if cs = 13 then b!"\r\n\r\n" else
  if cs = 14 then b!"\n\r\n" else
  if cs = 15 then b!"\r\n" else
  if cs = 16 then b!"\n" else
  if cs = 17 then b!":\r\n\r\n" else b!"\r\n\r\n"

theorem completion_ok : ∀ cs, cs < 58 → cs ≠ 0 → runCs cs (completion cs) = some [] := by
  decide +kernel

theorem init_cs (s0 : Parser) : s0.init.cs = 1 := rfl

/-- Unfolding `execute` from a live state. -/
theorem execute_live (s : Parser) (buf : Bytes) (off : Nat) (h0 : s.cs ≠ 0) (h58 : s.cs < 58) (hb : s.bodyStart = 0) :
    s.execute buf off = { (s.run off (buf.drop off)).1 with
      nread := s.nread + ((s.run off (buf.drop off)).2 - off) + (if (s.run off (buf.drop off)).1.cs = 58 then 1 else 0) } := by
  have hn := run_nread (buf.drop off) s off (by omega) hb
  unfold Parser.execute
  by_cases he : buf.drop off = []
  · have hne : s.cs ≠ 58 := by omega
    simp [he, Parser.run, hb, hne]
  · have hc : hasCase s.cs = true := by unfold hasCase; simp; omega
    simp only [he, hc, ↓reduceIte]
    by_cases h : (s.run off (buf.drop off)).1.cs = 58
    · have := hn.2.2 h
      simp [h, this, hn.1]
    · have : (s.run off (buf.drop off)).1.bodyStart = 0 := by
        rcases Nat.eq_zero_or_pos (s.run off (buf.drop off)).1.bodyStart with h' | h'
        · exact h'
        · exact absurd (hn.2.1 (by omega)) h
      simp [h, this, hn.1]

theorem nread_live (s0 : Parser) (bs : Bytes) (h0 : (s0.init.run 0 bs).1.cs ≠ 0)
    (h58 : (s0.init.run 0 bs).1.cs ≠ 58) : s0.init.execute bs 0 = { (s0.init.run 0 bs).1 with nread := bs.length } := by
  rw [execute_live s0.init bs 0 (by simp [init_cs]) (by simp [init_cs]) rfl]
  have hp := (run_pos bs s0.init 0 (by simp [init_cs])).2.2 h0 h58
  simp [h58, hp]
  rfl

/-- Continuing a live, unfinished parse on an extended buffer is the same as parsing the extended buffer. -/
theorem execute_resume (s0 : Parser) (xs ys : Bytes) (h0 : (s0.init.run 0 xs).1.cs ≠ 0)
    (h58 : (s0.init.run 0 xs).1.cs ≠ 58) :
    (s0.init.execute xs 0).execute (xs ++ ys) (s0.init.execute xs 0).nread = s0.init.execute (xs ++ ys) 0 := by
  have hr : (s0.init.run 0 xs).1.cs < 58 := by
    have := run_range xs s0.init 0 (by simp [init_cs]); omega
  have hn := run_nread xs s0.init 0 (by simp [init_cs]) rfl
  have hbs : (s0.init.run 0 xs).1.bodyStart = 0 := by
    rcases Nat.eq_zero_or_pos (s0.init.run 0 xs).1.bodyStart with h' | h'
    · exact h'
    · exact absurd (hn.2.1 (by omega)) h58
  rw [nread_live s0 xs h0 h58]
  have ha := run_append xs ys s0.init 0 (by simp [init_cs])
  rw [if_neg (by simp [h0, h58]), Nat.zero_add] at ha
  rw [execute_live ({ (s0.init.run 0 xs).1 with nread := xs.length }) _ _ h0 hr hbs, execute_live s0.init (xs ++ ys) 0 (by simp [init_cs]) (by simp [init_cs]) rfl]
  simp only [List.drop_left, List.drop_zero]
  rw [ha]
  -- `nread` does not influence `run`
  have key : ∀ (bs : Bytes) (s : Parser) (p n : Nat),
      ({ s with nread := n } : Parser).run p bs = ({ (s.run p bs).1 with nread := n }, (s.run p bs).2) := by
    intro bs
    induction bs with
    | nil => intro s p n; rfl
    | cons b bs ih =>
      intro s p n
      simp only [Parser.run]
      cases ht : tr s.cs b with
      | none => rfl
      | some x =>
        obtain ⟨acts, k⟩ := x
        have fa : ∀ (acts : List Act) (s : Parser), acts.foldl (Parser.act p) { s with nread := n }
            = { acts.foldl (Parser.act p) s with nread := n } := by
          intro acts
          induction acts with
          | nil => intro s; rfl
          | cons a acts ih' =>
            intro s
            simp only [List.foldl_cons]
            have : Parser.act p { s with nread := n } a = { Parser.act p s a with nread := n } := by cases a <;> rfl
            rw [this, ih']
        simp only [fa]
        split
        · rfl
        · exact ih { acts.foldl (Parser.act p) s with cs := k } (p + 1) n
  rw [key]
  have hp := (run_pos ys (s0.init.run 0 xs).1 xs.length (by omega)).2.1
  simp only [Parser.mk.injEq, true_and, and_true]
  have i0 : s0.init.nread = 0 := rfl
  rw [i0]
  omega

/-! ### slices of concatenations -/

theorem Slice.of_eq (A B C : Bytes) (a l : Nat) (ha : a = A.length) (hl : l = B.length) :
    (⟨a, l⟩ : Slice).of (A ++ (B ++ C)) = B := by
  subst ha hl
  simp [Slice.of]

theorem Slice.of_zero (buf : Bytes) (a : Nat) : (⟨a, 0⟩ : Slice).of buf = [] := by simp [Slice.of]

/-- The name/value pairs reported by the header callback, read from the buffer. -/
def fieldTexts (p : Parser) (buf : Bytes) : List (Bytes × Bytes) :=
  p.fields.map (fun f => (f.name.of buf, f.value.of buf))

theorem hdrRefs_texts : ∀ (hs : List HeaderLine) (A C : Bytes) (p : Nat), p = A.length →
    (hdrRefs p hs).map (fun f => (f.name.of (A ++ ((hs.map HeaderLine.render).flatten ++ C)),
      f.value.of (A ++ ((hs.map HeaderLine.render).flatten ++ C)))) = hs.map (fun h => (h.name, h.value))
  | [], _, _, _, _ => rfl
  | h :: hs, A, C, p, hp => by
    subst hp
    have ih := hdrRefs_texts hs (A ++ h.render) C (A.length + h.render.length) (by simp)
    simp only [List.append_assoc] at ih
    simp only [hdrRefs, List.map_cons, List.flatten_cons, List.append_assoc]
    rw [ih]
    congr 1
    simp only [Prod.mk.injEq]
    constructor
    · have : A ++ (h.render ++ ((hs.map HeaderLine.render).flatten ++ C)) = A ++ (h.name ++ (b!":" ++
        List.replicate h.spaces 32 ++ h.value ++ b!"\r\n" ++ ((hs.map HeaderLine.render).flatten ++ C))) := by
        simp [HeaderLine.render]
      rw [this]
      exact Slice.of_eq _ _ _ _ _ rfl rfl
    · have : A ++ (h.render ++ ((hs.map HeaderLine.render).flatten ++ C)) = (A ++ h.name ++ b!":" ++
        List.replicate h.spaces 32) ++ (h.value ++ (b!"\r\n" ++ ((hs.map HeaderLine.render).flatten ++ C))) := by
        simp [HeaderLine.render]
      rw [this]
      exact Slice.of_eq _ _ _ _ _ (by simp; omega) rfl


theorem IsHeadParser.texts {h : ReqHead} {q : Parser} (hh : IsHeadParser h q) (rest : Bytes) :
    q.method.of (h.render ++ rest) = h.method ∧ q.uri.of (h.render ++ rest) = h.target.uri ∧
    q.path.of (h.render ++ rest) = h.target.path ∧ q.query.of (h.render ++ rest) = h.target.query ∧
    q.fragment.of (h.render ++ rest) = h.fragment.getD [] ∧ q.version.of (h.render ++ rest) = h.version ∧
    fieldTexts q (h.render ++ rest) = h.headers.map (fun f => (f.name, f.value)) ∧
    (h.render ++ rest).drop q.bodyStart = rest := by
  generalize hbuf : h.render ++ rest = buf
  have hb : buf = h.method ++ (b!" " ++ (h.target.uri ++ (fragText h.fragment ++ (b!" " ++ (h.version ++ (b!"\r\n"
    ++ ((h.headers.map HeaderLine.render).flatten ++ (b!"\r\n" ++ rest)))))))) := by
    rw [← hbuf]; simp [ReqHead.render]
  obtain ⟨c1, c2, c3, c4, c5, c6, c7, c8, c9⟩ := hh
  refine ⟨?_, ?_, ?_, ?_, ?_, ?_, ?_, ?_⟩
  · rw [hb]; simp only [c3]
    exact Slice.of_eq [] _ _ _ _ rfl rfl
  · rw [hb, ← List.append_assoc]; simp only [c4]
    exact Slice.of_eq (h.method ++ b!" ") _ _ _ _ (by simp) rfl
  · simp only [c5]
    cases ht : h.target with
    | origin path query =>
      rw [hb, ht]
      obtain ⟨Y, hY⟩ : ∃ Y, Target.uri (.origin path query) = path ++ Y := by
        cases query with
        | none => exact ⟨[], by simp [Target.uri]⟩
        | some q => exact ⟨b!"?" ++ q, by simp [Target.uri]⟩
      rw [hY]
      have e : ∀ X : Bytes, h.method ++ (b!" " ++ (path ++ Y ++ X)) = (h.method ++ b!" ") ++ (path ++ (Y ++ X)) := by
        intro X; simp
      rw [e]
      exact Slice.of_eq (h.method ++ b!" ") path _ (h.method.length + 1) path.length (by simp) rfl
    | _ => simp [Slice.of_zero, Target.path]
  · simp only [c6]
    cases ht : h.target with
    | origin path query =>
      cases query with
      | none => simp [Slice.of_zero, Target.query]
      | some q =>
        rw [hb, ht]
        have e : ∀ X : Bytes, h.method ++ (b!" " ++ (Target.uri (.origin path (some q)) ++ X))
          = (h.method ++ b!" " ++ path ++ b!"?") ++ (q ++ X) := by intro X; simp [Target.uri]
        rw [e]
        exact Slice.of_eq _ q _ _ _ (by simp; omega) rfl
    | _ => simp [Slice.of_zero, Target.query]
  · simp only [c7]
    cases hf : h.fragment with
    | none => simp [Slice.of_zero]
    | some f =>
      rw [hb, hf]
      have e : ∀ X : Bytes, h.method ++ (b!" " ++ (h.target.uri ++ (fragText (some f) ++ X)))
          = (h.method ++ b!" " ++ h.target.uri ++ b!"#") ++ (f ++ X) := by intro X; simp [fragText]
      rw [e]
      exact Slice.of_eq _ f _ _ _ (by simp; omega) rfl
  · simp only [c8]
    rw [hb]
    have e : ∀ X : Bytes, h.method ++ (b!" " ++ (h.target.uri ++ (fragText h.fragment ++ (b!" " ++ X))))
          = (h.method ++ b!" " ++ h.target.uri ++ fragText h.fragment ++ b!" ") ++ X := by intro X; simp
    rw [e]
    exact Slice.of_eq _ h.version _ _ _ (by simp; omega) rfl
  · simp only [fieldTexts, c9]
    have e : buf = (h.method ++ b!" " ++ h.target.uri ++ fragText h.fragment ++ b!" " ++ h.version ++ b!"\r\n")
      ++ ((h.headers.map HeaderLine.render).flatten ++ (b!"\r\n" ++ rest)) := by rw [hb]; simp
    rw [e]
    exact hdrRefs_texts _ _ _ _ (by simp; omega)
  · simp only [c2]
    have e : buf = h.render ++ rest := by rw [hb]; simp [ReqHead.render]
    rw [e]; simp

end Pillow
