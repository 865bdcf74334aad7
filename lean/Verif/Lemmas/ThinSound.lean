import Verif.Lemmas.ThinComplete
set_option linter.unusedSimpArgs false
namespace Pillow
open Spec

theorem inv_method (r : Bytes) : ∀ (bs : Bytes) (k : Nat), 1 ≤ k → k ≤ 20 → runCs (mcs k) bs = some r →
    ∃ m rest, bs = m ++ 32 :: rest ∧ (∀ b ∈ m, MethodChar b) ∧ k + m.length ≤ 20 ∧ runCs 3 rest = some r := by
  intro bs
  induction bs with
  | nil => intro k _ _ h; simp [runCs] at h
  | cons b bs ih =>
    intro k h1 h2 h
    by_cases hb : b = 32
    · subst hb
      rw [runCs_step (tr_mcs_space k h1 h2) (by decide)] at h
      exact ⟨[], bs, rfl, by simp, by simpa using h2, h⟩
    · by_cases hm : MethodChar b
      · by_cases hk : k = 20
        · subst hk; rw [runCs_none (tr_mcs_20 hb)] at h; cases h
        · rw [runCs_step (tr_mcs_char hm k h1 (by omega)) (by unfold mcs; split <;> omega)] at h
          obtain ⟨m, rest, a1, a2, a3, a4⟩ := ih (k + 1) (by omega) (by omega) h
          exact ⟨b :: m, rest, by simp [a1], by simpa [hm] using a2, by simp; omega, a4⟩
      · rw [runCs_none (tr_mcs_bad hm hb k h1 h2)] at h; cases h

theorem notUri {b : Byte} (h : ¬ UriChar b) (h' : b ≠ 37) : b = 32 ∨ b = 35 ∨ (b ≠ 32 ∧ b ≠ 35 ∧ isCtl b = true) := by
  revert b; apply byte_forall; decide +kernel

theorem notPath {b : Byte} (h : ¬ PathChar b) (h' : b ≠ 37) :
    b = 32 ∨ b = 35 ∨ b = 63 ∨ (b ≠ 32 ∧ b ≠ 35 ∧ b ≠ 63 ∧ isCtl b = true) := by
  revert b; apply byte_forall; decide +kernel

theorem exits26 : ∀ b, ¬ UriChar b → b ≠ 37 → tr 26 b = none ∨ ∃ acts k, tr 26 b = some (acts, k) ∧ k ≠ 58 ∧ delimNext b k := by
  intro b h h'
  rcases notUri h h' with rfl | rfl | ⟨h1, h2, h3⟩
  · right; exact ⟨_, 5, rfl, by decide, .inl ⟨rfl, rfl⟩⟩
  · right; exact ⟨_, 20, rfl, by decide, .inr ⟨rfl, rfl⟩⟩
  · left; simp [tr, *]

theorem exits35 : ∀ b, ¬ UriChar b → b ≠ 37 → tr 35 b = none ∨ ∃ acts k, tr 35 b = some (acts, k) ∧ k ≠ 58 ∧ delimNext b k := by
  intro b h h'
  rcases notUri h h' with rfl | rfl | ⟨h1, h2, h3⟩
  · right; exact ⟨_, 5, rfl, by decide, .inl ⟨rfl, rfl⟩⟩
  · right; exact ⟨_, 20, rfl, by decide, .inr ⟨rfl, rfl⟩⟩
  · left; simp [tr, *]

theorem exits21 : ∀ b, ¬ UriChar b → b ≠ 37 → tr 21 b = none ∨ ∃ acts k, tr 21 b = some (acts, k) ∧ k ≠ 58 ∧ (b = 32 ∧ k = 5) := by
  intro b h h'
  rcases notUri h h' with rfl | rfl | ⟨h1, h2, h3⟩
  · right; exact ⟨_, 5, rfl, by decide, rfl, rfl⟩
  · left; simp [tr]
  · left; simp [tr, *]

theorem exits30 : ∀ b, ¬ PathChar b → b ≠ 37 → tr 30 b = none ∨
    ∃ acts k, tr 30 b = some (acts, k) ∧ k ≠ 58 ∧ (delimNext b k ∨ (b = 63 ∧ k = 34)) := by
  intro b h h'
  rcases notPath h h' with rfl | rfl | rfl | ⟨h1, h2, h3, h4⟩
  · right; exact ⟨_, 5, rfl, by decide, .inl (.inl ⟨rfl, rfl⟩)⟩
  · right; exact ⟨_, 20, rfl, by decide, .inl (.inr ⟨rfl, rfl⟩)⟩
  · right; exact ⟨_, 34, rfl, by decide, .inr ⟨rfl, rfl⟩⟩
  · left; simp [tr, *]

/-- The query start state behaves like the query state as far as states are concerned. -/
theorem tr34_35 (b : Byte) : (tr 34 b).map Prod.snd = (tr 35 b).map Prod.snd := by
  revert b; apply byte_forall; decide +kernel
theorem tr20_21 (b : Byte) : (tr 20 b).map Prod.snd = (tr 21 b).map Prod.snd := by
  revert b; apply byte_forall; decide +kernel

theorem tr3_bad {b : Byte} (h : ¬ SchemeChar b) (h1 : b ≠ 42) (h2 : b ≠ 47) (h3 : b ≠ 58) : tr 3 b = none := by
  revert b; apply byte_forall; decide +kernel

theorem runCs_congr {m k : Nat} (h : ∀ b, (tr m b).map Prod.snd = (tr k b).map Prod.snd) (bs : Bytes) :
    runCs m bs = runCs k bs := by
  cases bs with
  | nil => rfl
  | cons b bs =>
    have := h b
    simp only [runCs]
    cases e1 : tr m b with
    | none => cases e2 : tr k b <;> simp_all
    | some x =>
      cases e2 : tr k b with
      | none => simp_all
      | some y =>
        simp [e1, e2] at this
        have d1 := tr_done _ _ x.1 x.2 e1
        have d2 := tr_done _ _ y.1 y.2 e2
        simp only [d1.1, d2.1, this]

theorem runCs_34 (bs : Bytes) : runCs 34 bs = runCs 35 bs := runCs_congr tr34_35 bs
theorem runCs_20 (bs : Bytes) : runCs 20 bs = runCs 21 bs := runCs_congr tr20_21 bs

theorem inv_26 (bs r : Bytes) (h : runCs 26 bs = some r) : ∃ t d k rest, bs = t ++ d :: rest ∧ EscText UriChar t ∧
    delimNext d k ∧ runCs k rest = some r :=
  inv_esc (by decide) phase26 delimNext exits26 bs.length bs r (Nat.le_refl _) h

theorem inv_target (bs r : Bytes) (h : runCs 3 bs = some r) : ∃ (t : Target) (d : Byte) (k : Nat) (rest : Bytes),
    bs = t.uri ++ d :: rest ∧ t.Wf ∧ delimNext d k ∧ runCs k rest = some r := by
  match bs with
  | [] => simp [runCs] at h
  | b :: bs =>
    by_cases h42 : b = 42
    · subst h42
      rw [runCs_step (k' := 4) (acts := [.mark]) rfl (by decide)] at h
      obtain ⟨d, k, rest, h1, h2, h3⟩ := inv_one (m := 4) delimNext (by
        intro b acts k h
        simp only [tr] at h
        split at h
        · simp at h; rename_i hb; obtain ⟨-, rfl⟩ := h; exact ⟨.inl ⟨by simpa using hb, rfl⟩, by decide⟩
        · split at h
          · simp at h; rename_i hb; obtain ⟨-, rfl⟩ := h; exact ⟨.inr ⟨by simpa using hb, rfl⟩, by decide⟩
          · cases h) bs r h
      exact ⟨.star, d, k, rest, by simp [Target.uri, h1], trivial, h2, h3⟩
    · by_cases h47 : b = 47
      · subst h47
        rw [runCs_step (k' := 30) (acts := [.mark]) rfl (by decide)] at h
        obtain ⟨t, d, k, rest, h1, h2, h3, h4⟩ :=
          inv_esc (by decide) phase30 (fun b k => delimNext b k ∨ (b = 63 ∧ k = 34)) exits30 bs.length bs r (Nat.le_refl _) h
        rcases h3 with h3 | ⟨rfl, rfl⟩
        · exact ⟨.origin (47 :: t) none, d, k, rest, by simp [Target.uri, h1], ⟨⟨t, rfl, h2⟩, by simp⟩, h3, h4⟩
        · rw [runCs_34] at h4
          obtain ⟨q, d, k, rest', g1, g2, g3, g4⟩ :=
            inv_esc (by decide) phase35 delimNext exits35 rest.length rest r (Nat.le_refl _) h4
          exact ⟨.origin (47 :: t) (some q), d, k, rest', by simp [Target.uri, h1, g1],
            ⟨⟨t, rfl, h2⟩, by rintro q' ⟨⟩; exact g2⟩, g3, g4⟩
      · by_cases h58 : b = 58
        · subst h58
          rw [runCs_step (k' := 26) (acts := [.mark]) rfl (by decide)] at h
          obtain ⟨t, d, k, rest, h1, h2, h3, h4⟩ := inv_26 bs r h
          exact ⟨.absolute [] t, d, k, rest, by simp [Target.uri, h1], ⟨by simp, h2⟩, h3, h4⟩
        · by_cases hs : SchemeChar b
          · rw [runCs_step (tr3_scheme hs) (by decide)] at h
            obtain ⟨t, rest, h1, h2, h3⟩ := inv_loop (m := 25) (k := 26) (d := 58) (P := SchemeChar) (by decide) (by decide)
              (fun b h => tr25_scheme h) [] rfl (by
                intro b hb h'
                have : isSchemeChar b = false := by
                  rw [Bool.eq_false_iff]; exact fun h' => hb ((isSchemeChar_iff b).1 h')
                simp [tr, this, h']) bs r h
            obtain ⟨u, d, k, rest', g1, g2, g3, g4⟩ := inv_26 rest r h3
            exact ⟨.absolute (b :: t) u, d, k, rest', by simp [Target.uri, h1, g1], ⟨by simpa [hs] using h2, g2⟩, g3, g4⟩
          · rw [runCs_none (tr3_bad hs h42 h47 h58)] at h; cases h

theorem inv_only {m k : Nat} {c : Byte} {acts : List Act} (hk : k ≠ 58) (hm : ∀ b, tr m b = trOnly c acts k b)
    (bs r : Bytes) (h : runCs m bs = some r) : ∃ rest, bs = c :: rest ∧ runCs k rest = some r := by
  match bs with
  | [] => simp [runCs] at h
  | b :: bs =>
    by_cases hb : b = c
    · subst hb
      rw [runCs_step (k' := k) (acts := acts) (by rw [hm]; simp [trOnly]) hk] at h
      exact ⟨bs, rfl, h⟩
    · rw [runCs_none (by rw [hm]; simp [trOnly, hb])] at h; cases h

theorem inv_digit {m k : Nat} (hk : k ≠ 58) (hm : ∀ b, tr m b = if isDigit b then some ([], k) else none)
    (bs r : Bytes) (h : runCs m bs = some r) : ∃ b rest, bs = b :: rest ∧ Digit b ∧ runCs k rest = some r := by
  match bs with
  | [] => simp [runCs] at h
  | b :: bs =>
    by_cases hb : isDigit b = true
    · rw [runCs_step (k' := k) (acts := []) (by rw [hm]; simp [hb]) hk] at h
      exact ⟨b, bs, rfl, (isDigit_iff b).1 hb, h⟩
    · rw [runCs_none (by rw [hm]; simp [hb])] at h; cases h

theorem digit_false {b : Byte} (h : ¬ Digit b) : isDigit b = false := by
  rw [Bool.eq_false_iff]; exact fun h' => h ((isDigit_iff b).1 h')

theorem inv_version (bs r : Bytes) (h : runCs 5 bs = some r) : ∃ maj min rest,
    bs = b!"HTTP/" ++ maj ++ b!"." ++ min ++ 13 :: 10 :: rest ∧ (maj ≠ [] ∧ ∀ b ∈ maj, Digit b) ∧
    (min ≠ [] ∧ ∀ b ∈ min, Digit b) ∧ runCs 15 rest = some r := by
  obtain ⟨r1, rfl, h⟩ := inv_only (m := 5) (by decide) (fun _ => rfl) bs r h
  obtain ⟨r2, rfl, h⟩ := inv_only (m := 6) (by decide) (fun _ => rfl) _ r h
  obtain ⟨r3, rfl, h⟩ := inv_only (m := 7) (by decide) (fun _ => rfl) _ r h
  obtain ⟨r4, rfl, h⟩ := inv_only (m := 8) (by decide) (fun _ => rfl) _ r h
  obtain ⟨r5, rfl, h⟩ := inv_only (m := 9) (by decide) (fun _ => rfl) _ r h
  obtain ⟨a, r6, rfl, ha, h⟩ := inv_digit (m := 10) (by decide) (fun _ => rfl) _ r h
  obtain ⟨maj, r7, rfl, hmaj, h⟩ := inv_loop (m := 11) (k := 12) (d := 46) (P := Digit) (by decide) (by decide)
    (fun b hb => by simp [tr, digit_ne hb, (isDigit_iff b).2 hb]) [] rfl
    (fun b hb h' => by simp [tr, digit_false hb, h']) _ r h
  obtain ⟨c, r8, rfl, hc, h⟩ := inv_digit (m := 12) (by decide) (fun _ => rfl) _ r h
  obtain ⟨min, r9, rfl, hmin, h⟩ := inv_loop (m := 13) (k := 14) (d := 13) (P := Digit) (by decide) (by decide)
    (fun b hb => by simp [tr, digit_ne hb, (isDigit_iff b).2 hb]) [.version] rfl
    (fun b hb h' => by simp [tr, digit_false hb, h']) _ r h
  obtain ⟨r10, rfl, h⟩ := inv_only (m := 14) (by decide) (fun _ => rfl) _ r h
  exact ⟨a :: maj, c :: min, r10, by simp, ⟨by simp, by simpa [ha] using hmaj⟩, ⟨by simp, by simpa [hc] using hmin⟩, h⟩

theorem inv_value (bs r : Bytes) (h : runCs 18 bs = some r) : ∃ n value rest,
    bs = List.replicate n 32 ++ value ++ 13 :: 10 :: rest ∧ 13 ∉ value ∧ value.head? ≠ some 32 ∧
    runCs 15 rest = some r := by
  induction bs with
  | nil => simp [runCs] at h
  | cons b bs ih =>
    by_cases hb : b = 13
    · subst hb
      rw [runCs_step (k' := 14) (acts := [.mark, .writeValue]) rfl (by decide)] at h
      obtain ⟨rest, rfl, h⟩ := inv_only (m := 14) (by decide) (fun _ => rfl) _ r h
      exact ⟨0, [], rest, by simp, by simp, by simp, h⟩
    · by_cases hs : b = 32
      · subst hs
        rw [runCs_step (k' := 18) (acts := [.mark]) rfl (by decide)] at h
        obtain ⟨n, v, rest, h1, h2, h3, h4⟩ := ih h
        exact ⟨n + 1, v, rest, by simp [h1, List.replicate_succ], h2, h3, h4⟩
      · rw [runCs_step (k' := 19) (acts := [.mark]) (by simp [tr, hb, hs]) (by decide)] at h
        obtain ⟨t, rest, h1, h2, h3⟩ := inv_loop (m := 19) (k := 14) (d := 13) (P := fun b => b ≠ 13) (by decide) (by decide)
          (fun b hb => by simp [tr, hb]) [.writeValue] rfl (fun b hb h' => absurd h' hb) bs r h
        obtain ⟨rest, rfl, h3⟩ := inv_only (m := 14) (by decide) (fun _ => rfl) _ r h3
        refine ⟨0, b :: t, rest, by simp [h1], ?_, by simpa using hs, h3⟩
        simp only [List.mem_cons, not_or]
        exact ⟨fun e => hb e.symm, fun e => h2 13 e rfl⟩

theorem inv_headers (r : Bytes) : ∀ (n : Nat) (bs : Bytes), bs.length ≤ n → runCs 15 bs = some r →
    ∃ hs : List HeaderLine, bs = (hs.map HeaderLine.render).flatten ++ 13 :: 10 :: r ∧ ∀ h ∈ hs, h.Wf := by
  intro n
  induction n with
  | zero =>
    intro bs hl h
    have : bs = [] := by simpa using hl
    subst this; simp [runCs] at h
  | succ n ih =>
    intro bs hl h
    match bs with
    | [] => simp [runCs] at h
    | b :: bs =>
      simp at hl
      by_cases hb : b = 13
      · subst hb
        rw [runCs_step (k' := 16) (acts := []) rfl (by decide)] at h
        match bs with
        | [] => simp [runCs] at h
        | c :: bs =>
          by_cases hc : c = 10
          · subst hc
            simp [runCs, tr, trOnly] at h
            exact ⟨[], by simp [h], by simp⟩
          · rw [runCs_none (by simp [tr, trOnly, hc])] at h; cases h
      · by_cases ht : TokenChar b
        · rw [runCs_step (k' := 17) (acts := [.fieldStart]) (by simp [tr, hb, (isTokenChar_iff b).2 ht]) (by decide)] at h
          obtain ⟨name, rest, h1, h2, h3⟩ := inv_loop (m := 17) (k := 18) (d := 58) (P := TokenChar) (by decide) (by decide)
            (fun b hb => by simp [tr, tokenChar_ne hb, (isTokenChar_iff b).2 hb]) [.fieldLen] rfl
            (fun b hb h' => by
              have : isTokenChar b = false := by
                rw [Bool.eq_false_iff]; exact fun h' => hb ((isTokenChar_iff b).1 h')
              simp [tr, this, h']) bs r h
          obtain ⟨k, value, rest', g1, g2, g3, g4⟩ := inv_value rest r h3
          have hlen : rest'.length ≤ n := by
            rw [h1, g1] at hl; simp at hl; omega
          obtain ⟨hs, e1, e2⟩ := ih rest' hlen g4
          refine ⟨⟨b :: name, k, value⟩ :: hs, ?_, ?_⟩
          · simp [HeaderLine.render, h1, g1, e1]
          · intro h' hh
            simp at hh
            rcases hh with rfl | hh
            · exact ⟨by simp, by simpa [ht] using h2, g2, g3⟩
            · exact e2 h' hh
        · have : tr 15 b = none := by
            have : isTokenChar b = false := by
              rw [Bool.eq_false_iff]; exact fun h' => ht ((isTokenChar_iff b).1 h')
            simp [tr, hb, this]
          rw [runCs_none this] at h; cases h

/-- Soundness: what the machine accepts is a well-formed head. -/
theorem runCs_sound (bs r : Bytes) (h : runCs 1 bs = some r) : ∃ hd : ReqHead, hd.Wf ∧ bs = hd.render ++ r := by
  match bs with
  | [] => simp [runCs] at h
  | b :: bs =>
    by_cases hb : MethodChar b
    · rw [runCs_step (tr1 hb) (by decide)] at h
      obtain ⟨m, r1, rfl, hm, hl, h⟩ := inv_method r bs 1 (by decide) (by decide) h
      obtain ⟨t, d, k, r2, rfl, ht, hd, h⟩ := inv_target r1 r h
      have : ∃ (f : Option Bytes) (r3 : Bytes), d :: r2 = fragText f ++ 32 :: r3 ∧ (∀ g, f = some g → EscText UriChar g) ∧
          runCs 5 r3 = some r := by
        rcases hd with ⟨rfl, rfl⟩ | ⟨rfl, rfl⟩
        · exact ⟨none, r2, rfl, by simp, h⟩
        · rw [runCs_20] at h
          obtain ⟨f, d', k', r3, rfl, hf, ⟨rfl, rfl⟩, h⟩ :=
            inv_esc (by decide) phase21 (fun b k => b = 32 ∧ k = 5) exits21 r2.length r2 r (Nat.le_refl _) h
          exact ⟨some f, r3, by simp [fragText], by rintro g ⟨⟩; exact hf, h⟩
      obtain ⟨f, r3, e3, hf, h⟩ := this
      obtain ⟨maj, min, r4, rfl, hmaj, hmin, h⟩ := inv_version r3 r h
      obtain ⟨hs, rfl, hhs⟩ := inv_headers r r4.length r4 (Nat.le_refl _) h
      refine ⟨⟨b :: m, t, f, maj, min, hs⟩, ⟨⟨by simp, by simp; omega⟩, by simpa [hb] using hm, ht, hf, hmaj, hmin, hhs⟩, ?_⟩
      rw [e3]
      simp [ReqHead.render, ReqHead.version]
    · have : tr 1 b = none := by
        have : isMethodChar b = false := by
          rw [Bool.eq_false_iff]; exact fun h' => hb ((isMethodChar_iff b).1 h')
        simp [tr, this]
      rw [runCs_none this] at h; cases h

/-! ### completeness, assembled -/

/-- The parser after a well-formed head. -/
structure IsHeadParser (h : ReqHead) (p : Parser) : Prop where
  cs : p.cs = 58
  bodyStart : p.bodyStart = h.render.length
  method : p.method = ⟨0, h.method.length⟩
  uri : p.uri = ⟨h.method.length + 1, h.target.uri.length⟩
  path : p.path = match h.target with
    | .origin path _ => ⟨h.method.length + 1, path.length⟩
    | _ => ⟨0, 0⟩
  query : p.query = match h.target with
    | .origin path (some q) => ⟨h.method.length + 1 + path.length + 1, q.length⟩
    | _ => ⟨0, 0⟩
  fragment : p.fragment = match h.fragment with
    | some f => ⟨h.method.length + 1 + h.target.uri.length + 1, f.length⟩
    | none => ⟨0, 0⟩
  version : p.version = ⟨h.method.length + 1 + h.target.uri.length + (fragText h.fragment).length + 1, h.version.length⟩
  fields : p.fields = hdrRefs
    (h.method.length + 1 + h.target.uri.length + (fragText h.fragment).length + 1 + h.version.length + 2) h.headers

theorem run_end {s : Parser} (p : Nat) (rest : Bytes) : Parser.run { s with cs := 15 } p (13 :: 10 :: rest)
    = ({ s with bodyStart := p + 2, cs := 58 }, p + 2) := by
  rw [run_to [] 16 (by simp [tr]) (by simp) rfl]
  simp [Parser.run, tr, trOnly, Parser.act]

/-- The fragment slice for a fragment at `p`. -/
def fragSlice (f : Option Bytes) (p : Nat) (dflt : Slice) : Slice :=
  match f with
  | some f => ⟨p, f.length⟩
  | none => dflt

theorem run_complete (s0 : Parser) (h : ReqHead) (hw : h.Wf) (rest : Bytes) :
    ∃ p, Parser.run s0.init 0 (h.render ++ rest) = (p, h.render.length) ∧ IsHeadParser h p ∧ p.nread = 0 := by
  obtain ⟨m, t, f, maj, min, hs⟩ := h
  obtain ⟨h1, h2, h3, h4, h5, h6, h7⟩ := hw
  simp only at h1 h2 h3 h4 h5 h6 h7
  have hd : ∃ d k r, fragText f ++ 32 :: (b!"HTTP/" ++ maj ++ b!"." ++ min ++ 13 :: 10 ::
      ((hs.map HeaderLine.render).flatten ++ 13 :: 10 :: rest)) = d :: r ∧ delimNext d k ∧
      ∀ (s : Parser) (p : Nat), ∃ mk, Parser.run { s with cs := k } p r =
        Parser.run { s with mark := mk, fragment := fragSlice f p s.fragment, cs := 5 }
          (p + (fragText f).length) (b!"HTTP/" ++ maj ++ b!"." ++ min ++ 13 :: 10 ::
            ((hs.map HeaderLine.render).flatten ++ 13 :: 10 :: rest)) := by
    cases f with
    | none => exact ⟨32, 5, _, rfl, .inl ⟨rfl, rfl⟩, fun s p => ⟨s.mark, rfl⟩⟩
    | some f =>
      refine ⟨35, 20, _, rfl, .inr ⟨rfl, rfl⟩, fun s p => ⟨p, ?_⟩⟩
      exact (run_fragment f p (h4 f rfl)).trans (by simp [fragText]; rfl)
  obtain ⟨d, k, r, hr, hd, hrun⟩ := hd
  have e : (ReqHead.render ⟨m, t, f, maj, min, hs⟩ ++ rest) = m ++ 32 :: (t.uri ++ d :: r) := by
    rw [← hr]; simp [ReqHead.render, ReqHead.version]
  rw [e]
  have i0 : s0.init = { ({ queryStart := s0.queryStart } : Parser) with cs := 1 } := rfl
  rw [i0, run_method m 0 h1 h2]
  have := run_target (s := { ({ queryStart := s0.queryStart } : Parser) with mark := 0, method := ⟨0, m.length⟩ })
    (rest := r) t (0 + m.length + 1) h3 d k hd
  obtain ⟨mk, hrun⟩ := hrun (t.apply (0 + m.length + 1)
    { ({ queryStart := s0.queryStart } : Parser) with mark := 0, method := ⟨0, m.length⟩ }) (0 + m.length + 1 + t.uri.length + 1)
  have hv := run_version (rest := (hs.map HeaderLine.render).flatten ++ 13 :: 10 :: rest)
    (s := { (t.apply (0 + m.length + 1) { ({ queryStart := s0.queryStart } : Parser) with mark := 0, method := ⟨0, m.length⟩ }) with
      mark := mk, fragment := fragSlice f (0 + m.length + 1 + t.uri.length + 1) (t.apply (0 + m.length + 1) { ({ queryStart := s0.queryStart } : Parser) with mark := 0, method := ⟨0, m.length⟩ }).fragment })
    maj min (0 + m.length + 1 + t.uri.length + 1 + (fragText f).length) h5 h6
  generalize hS : (Parser.mk 15 _ _ _ _ _ _ _ _ _ _ _ _ _ : Parser) = S at hv
  generalize hP : 0 + m.length + 1 + t.uri.length + 1 + (fragText f).length + (b!"HTTP/" ++ maj ++ b!"." ++ min).length + 2 = P at hv
  obtain ⟨mk', fs, fl, hh⟩ := run_headers (rest := 13 :: 10 :: rest) hs S P h7
  have hS' : ({ S with cs := 15 } : Parser) = S := by subst hS; rfl
  rw [hS'] at hh
  have he := run_end (s := { S with mark := mk', fieldStart := fs, fieldLen := fl, fields := S.fields ++ hdrRefs P hs })
    (P + ((hs.map HeaderLine.render).flatten).length) rest
  have hlen : P + ((hs.map HeaderLine.render).flatten).length + 2
      = (ReqHead.render ⟨m, t, f, maj, min, hs⟩).length := by
    subst hP
    cases f <;> simp [ReqHead.render, ReqHead.version, fragText] <;> omega
  have hall := this.trans (hrun.trans (hv.trans (hh.trans he)))
  rw [hlen] at hall
  refine ⟨_, hall, ?_, ?_⟩
  · subst hS hP
    cases t with
    | star => cases f <;> constructor <;> simp [Target.apply, ReqHead.render, ReqHead.version, Target.uri, fragText, fragSlice] <;> first | omega | (congr 1; omega) | (congr 1; congr 1; omega)
    | absolute => cases f <;> constructor <;> simp [Target.apply, ReqHead.render, ReqHead.version, Target.uri, fragText, fragSlice] <;> first | omega | (congr 1; omega) | (congr 1; congr 1; omega)
    | origin p q =>
      cases q <;> cases f <;> constructor <;> simp [Target.apply, ReqHead.render, ReqHead.version, Target.uri, fragText, fragSlice] <;> first | omega | (congr 1; omega) | (congr 1; congr 1; omega)
  · subst hS
    cases t with
    | origin p q => cases q <;> rfl
    | _ => rfl
end Pillow
