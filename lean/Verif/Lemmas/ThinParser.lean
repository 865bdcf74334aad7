import Verif.Model.ThinParser
import Verif.Spec.Request
set_option linter.unusedSimpArgs false
namespace Pillow
open Spec

/-! ### character classes -/

theorem isMethodChar_iff : ∀ b, isMethodChar b = true ↔ MethodChar b := by
  apply byte_forall; unfold MethodChar; decide +kernel
theorem isSchemeChar_iff : ∀ b, isSchemeChar b = true ↔ SchemeChar b := by
  apply byte_forall; unfold SchemeChar; decide +kernel
theorem isTokenChar_iff : ∀ b, isTokenChar b = true ↔ TokenChar b := by
  apply byte_forall; unfold TokenChar; decide +kernel
theorem isDigit_iff : ∀ b, isDigit b = true ↔ Digit b := by
  apply byte_forall; unfold Digit; decide +kernel
theorem isHex_iff : ∀ b, isHex b = true ↔ HexDigit b := by
  apply byte_forall; unfold HexDigit; decide +kernel
theorem uriChar_iff : ∀ b, UriChar b ↔ ((b == 32) = false ∧ (b == 35) = false ∧ (b == 37) = false ∧ isCtl b = false) := by
  apply byte_forall; unfold UriChar; decide +kernel
theorem pathChar_iff (b : Byte) : PathChar b ↔ (UriChar b ∧ (b == 63) = false) := by
  unfold PathChar; simp

instance : DecidablePred MethodChar := fun b => inferInstanceAs (Decidable (oneOf _ b))
instance : DecidablePred SchemeChar := fun b => inferInstanceAs (Decidable (oneOf _ b))
instance : DecidablePred Digit := fun b => inferInstanceAs (Decidable (oneOf _ b))
instance : DecidablePred HexDigit := fun b => inferInstanceAs (Decidable (oneOf _ b))
instance : DecidablePred TokenChar := fun _ => inferInstanceAs (Decidable (_ ∧ _ ∧ _))
instance : DecidablePred UriChar := fun _ => inferInstanceAs (Decidable (_ ∧ _ ∧ _ ∧ _))
instance : DecidablePred PathChar := fun _ => inferInstanceAs (Decidable (_ ∧ _))

/-! ### the runner -/

theorem run_next {s : Parser} {p : Nat} {b : Byte} {bs : Bytes} {acts : List Act} {k k' : Nat}
    (h : tr k b = some (acts, k')) (hd : Act.done ∉ acts) :
    Parser.run { s with cs := k } p (b :: bs)
      = Parser.run { acts.foldl (Parser.act p) { s with cs := k } with cs := k' } (p + 1) bs := by
  simp [Parser.run, h, hd]

theorem run_step {s : Parser} {p : Nat} {b : Byte} {bs : Bytes} {k k' : Nat} (h : tr k b = some ([], k')) :
    Parser.run { s with cs := k } p (b :: bs) = Parser.run { s with cs := k' } (p + 1) bs :=
  run_next h (by simp)

theorem run_loop {s : Parser} {k : Nat} {rest : Bytes} : ∀ (t : Bytes) (p : Nat),
    (∀ b ∈ t, tr k b = some ([], k)) →
    Parser.run { s with cs := k } p (t ++ rest) = Parser.run { s with cs := k } (p + t.length) rest
  | [], p, _ => rfl
  | b :: t, p, h => by
    rw [List.cons_append, run_step (h b (by simp)), run_loop t (p + 1) (fun c hc => h c (by simp [hc]))]
    congr 1; simp; omega

/-- Only the states: what is left after the head, or `none` if the head does not end in these bytes. -/
def runCs : Nat → Bytes → Option Bytes
  | _, [] => none
  | cs, b :: bs =>
    match tr cs b with
    | none => none
    | some (acts, cs') => if .done ∈ acts then some bs else runCs cs' bs

theorem tr_done (cs : Nat) (b : Byte) (acts : List Act) (cs' : Nat) (h : tr cs b = some (acts, cs')) :
    (.done ∈ acts ↔ cs' = 58) ∧ (.done ∈ acts → cs = 16 ∧ b = 10 ∧ acts = [.done]) ∧ cs' ≠ 0 := by
  unfold tr at h
  split at h <;> (try simp only [trOnly, trEsc1, trHex] at h) <;>
    (repeat' split at h) <;> (try contradiction) <;>
    (simp only [Option.some.injEq, Prod.mk.injEq] at h; obtain ⟨rfl, rfl⟩ := h; simp_all) <;> omega

theorem run_fin_iff (s : Parser) (p : Nat) (bs : Bytes) (h : s.cs ≠ 58) :
    (s.run p bs).1.cs = 58 ↔ (runCs s.cs bs).isSome := by
  induction bs generalizing s p with
  | nil => simp [Parser.run, runCs, h]
  | cons b bs ih =>
    rw [Parser.run, runCs]
    cases ht : tr s.cs b with
    | none => simp
    | some q =>
      obtain ⟨acts, cs'⟩ := q
      have hd := tr_done _ _ _ _ ht
      by_cases hdone : Act.done ∈ acts
      · simp [hdone, hd.1.1 hdone]
      · simp only [hdone, ↓reduceIte]
        exact ih _ _ (fun e => hdone (hd.1.2 e))

/-! ### escape phases -/

structure EscPhase (P : Byte → Prop) (m e : Nat) : Prop where
  plain : ∀ b, P b → tr m b = some ([], m)
  pct : tr m 37 = some ([], e)
  p37 : ¬ P 37
  e1 : ∀ b, HexDigit b → tr e b = some ([], e + 1)
  e1u : tr e 117 = some ([], e + 2)
  e1x : ∀ b, ¬ HexDigit b → b ≠ 117 → tr e b = none
  h1 : ∀ b, HexDigit b → tr (e + 1) b = some ([], m)
  h1x : ∀ b, ¬ HexDigit b → tr (e + 1) b = none
  h2 : ∀ b, HexDigit b → tr (e + 2) b = some ([], e + 1)
  h2x : ∀ b, ¬ HexDigit b → tr (e + 2) b = none

theorem hex_ne_u {b : Byte} (h : HexDigit b) : (b == 117) = false := by
  revert b; apply byte_forall; decide +kernel

theorem isHex_false {b : Byte} (h : ¬ HexDigit b) : isHex b = false := by
  rw [Bool.eq_false_iff]; exact fun h' => h ((isHex_iff b).1 h')

local macro "esc_phase" : tactic => `(tactic| (
  constructor <;> intros <;>
  simp_all [tr, trEsc1, trHex, trOnly, uriChar_iff, pathChar_iff, isHex_false, hex_ne_u, (isHex_iff _).2]))

theorem phase26 : EscPhase UriChar 26 27 := by esc_phase
theorem phase30 : EscPhase PathChar 30 31 := by esc_phase
theorem phase35 : EscPhase UriChar 35 36 := by esc_phase
theorem phase21 : EscPhase UriChar 21 22 := by esc_phase

theorem run_esc {P : Byte → Prop} {m e : Nat} (ph : EscPhase P m e) {s : Parser} {rest : Bytes} {t : Bytes}
    (ht : EscText P t) : ∀ p, Parser.run { s with cs := m } p (t ++ rest)
      = Parser.run { s with cs := m } (p + t.length) rest := by
  induction ht with
  | nil => intro p; rfl
  | plain b t hb _ ih =>
    intro p; rw [List.cons_append, run_step (ph.plain b hb), ih]; congr 1; simp; omega
  | esc x y t hx hy _ ih =>
    intro p
    simp only [List.cons_append]
    rw [run_step ph.pct, run_step (ph.e1 x hx), run_step (ph.h1 y hy), ih]; congr 1; simp; omega
  | uesc x y t hx hy _ ih =>
    intro p
    simp only [List.cons_append]
    rw [run_step ph.pct, run_step ph.e1u, run_step (ph.h2 x hx), run_step (ph.h1 y hy), ih]; congr 1; simp; omega

/-- Started in the first escape state of the phase (after a `%` consumed by another state). -/
theorem run_esc_head {P : Byte → Prop} {m e : Nat} (ph : EscPhase P m e) {s : Parser} {rest : Bytes} {t : Bytes}
    (ht : EscText P (37 :: t)) (p : Nat) : Parser.run { s with cs := e } p (t ++ rest)
      = Parser.run { s with cs := m } (p + t.length) rest := by
  have h := run_esc ph (s := s) (rest := rest) ht p
  generalize hq : (37 : Byte) :: t = q at ht
  cases ht with
  | nil => cases hq
  | plain b t' hb _ => cases hq; exact absurd hb ph.p37
  | esc x y t' hx hy h' =>
    cases hq
    simp only [List.cons_append]
    rw [run_step (ph.e1 x hx), run_step (ph.h1 y hy), run_esc ph h']; congr 1; simp; omega
  | uesc x y t' hx hy h' =>
    cases hq
    simp only [List.cons_append]
    rw [run_step ph.e1u, run_step (ph.h2 x hx), run_step (ph.h1 y hy), run_esc ph h']; congr 1; simp; omega

theorem runCs_step {k k' : Nat} {b : Byte} {bs : Bytes} {acts : List Act} (h : tr k b = some (acts, k'))
    (hd : k' ≠ 58) : runCs k (b :: bs) = runCs k' bs := by
  have := (tr_done _ _ _ _ h).1
  simp [runCs, h, this, hd]

theorem runCs_none {k : Nat} {b : Byte} {bs : Bytes} (h : tr k b = none) : runCs k (b :: bs) = none := by
  simp [runCs, h]

/-- Inversion of an escape phase: the text up to a byte that leaves the phase. -/
theorem inv_esc {P : Byte → Prop} [DecidablePred P] {m e : Nat} (hm : m ≠ 58 ∧ e ≠ 58 ∧ e + 1 ≠ 58 ∧ e + 2 ≠ 58)
    (ph : EscPhase P m e) (X : Byte → Nat → Prop)
    (hX : ∀ b, ¬ P b → b ≠ 37 → tr m b = none ∨ ∃ acts k, tr m b = some (acts, k) ∧ k ≠ 58 ∧ X b k) :
    ∀ (n : Nat) (bs r : Bytes), bs.length ≤ n → runCs m bs = some r →
      ∃ t b k rest, bs = t ++ b :: rest ∧ EscText P t ∧ X b k ∧ runCs k rest = some r := by
  intro n
  induction n with
  | zero => intro bs r hl h; have : bs = [] := by simpa using hl
            subst this; simp [runCs] at h
  | succ n ih =>
    intro bs r hl h
    match bs with
    | [] => simp [runCs] at h
    | b :: bs =>
      simp at hl
      by_cases hP : P b
      · rw [runCs_step (ph.plain b hP) hm.1] at h
        obtain ⟨t, b', k, rest, h1, h2, h3, h4⟩ := ih bs r hl h
        exact ⟨b :: t, b', k, rest, by simp [h1], .plain b t hP h2, h3, h4⟩
      · by_cases h37 : b = 37
        · subst h37
          rw [runCs_step ph.pct hm.2.1] at h
          have fin2 : ∀ (y : Byte) (bs : Bytes), bs.length ≤ n → runCs (e + 1) (y :: bs) = some r → HexDigit y ∧
              ∃ t b k rest, bs = t ++ b :: rest ∧ EscText P t ∧ X b k ∧ runCs k rest = some r := by
            intro y bs hl h
            by_cases hy : HexDigit y
            · rw [runCs_step (ph.h1 y hy) hm.1] at h
              exact ⟨hy, ih bs r hl h⟩
            · rw [runCs_none (ph.h1x y hy)] at h; cases h
          match bs with
          | [] => simp [runCs] at h
          | x :: bs =>
            simp at hl
            by_cases hx : HexDigit x
            · rw [runCs_step (ph.e1 x hx) hm.2.2.1] at h
              match bs with
              | [] => simp [runCs] at h
              | y :: bs =>
                simp at hl
                obtain ⟨hy, t, b', k, rest, h1, h2, h3, h4⟩ := fin2 y bs (by omega) h
                exact ⟨37 :: x :: y :: t, b', k, rest, by simp [h1], .esc x y t hx hy h2, h3, h4⟩
            · by_cases hu : x = 117
              · subst hu
                rw [runCs_step ph.e1u hm.2.2.2] at h
                match bs with
                | [] => simp [runCs] at h
                | x :: bs =>
                  simp at hl
                  by_cases hx : HexDigit x
                  · rw [runCs_step (ph.h2 x hx) hm.2.2.1] at h
                    match bs with
                    | [] => simp [runCs] at h
                    | y :: bs =>
                      simp at hl
                      obtain ⟨hy, t, b', k, rest, h1, h2, h3, h4⟩ := fin2 y bs (by omega) h
                      exact ⟨37 :: 117 :: x :: y :: t, b', k, rest, by simp [h1], .uesc x y t hx hy h2, h3, h4⟩
                  · rw [runCs_none (ph.h2x x hx)] at h; cases h
              · rw [runCs_none (ph.e1x x hx hu)] at h; cases h
        · rcases hX b hP h37 with h' | ⟨acts, k, h', hk, hx⟩
          · rw [runCs_none h'] at h; cases h
          · rw [runCs_step h' hk] at h
            exact ⟨[], b, k, bs, rfl, .nil, hx, h⟩

/-- Inversion of a simple loop with one exit byte. -/
theorem inv_loop {P : Byte → Prop} [DecidablePred P] {m k : Nat} {d : Byte} (hm : m ≠ 58) (hk : k ≠ 58)
    (hl : ∀ b, P b → tr m b = some ([], m)) (acts : List Act) (hd : tr m d = some (acts, k))
    (hx : ∀ b, ¬ P b → b ≠ d → tr m b = none) : ∀ (bs r : Bytes), runCs m bs = some r →
      ∃ t rest, bs = t ++ d :: rest ∧ (∀ b ∈ t, P b) ∧ runCs k rest = some r := by
  intro bs r h
  induction bs with
  | nil => simp [runCs] at h
  | cons b bs ih =>
    by_cases hP : P b
    · rw [runCs_step (hl b hP) hm] at h
      obtain ⟨t, rest, h1, h2, h3⟩ := ih h
      exact ⟨b :: t, rest, by simp [h1], by simpa [hP] using h2, h3⟩
    · by_cases hb : b = d
      · subst hb
        rw [runCs_step hd hk] at h
        exact ⟨[], bs, rfl, by simp, h⟩
      · rw [runCs_none (hx b hP hb)] at h; cases h

/-- Inversion of one transition. -/
theorem inv_one {m : Nat} (P : Byte → Nat → Prop)
    (hP : ∀ b acts k, tr m b = some (acts, k) → P b k ∧ k ≠ 58) : ∀ (bs r : Bytes), runCs m bs = some r →
      ∃ b k rest, bs = b :: rest ∧ P b k ∧ runCs k rest = some r := by
  intro bs r h
  match bs with
  | [] => simp [runCs] at h
  | b :: bs =>
    cases ht : tr m b with
    | none => rw [runCs_none ht] at h; cases h
    | some q =>
      obtain ⟨acts, k⟩ := q
      have := hP b acts k ht
      rw [runCs_step ht this.2] at h
      exact ⟨b, k, bs, rfl, this.1, h⟩

end Pillow
