import Verif.Lemmas.ThinParser
set_option linter.unusedSimpArgs false
namespace Pillow
open Spec

theorem run_to {s s' : Parser} {p : Nat} {b : Byte} {bs : Bytes} (acts : List Act) {k : Nat} (k' : Nat)
    (h : tr k b = some (acts, k')) (hd : Act.done ∉ acts)
    (hs : { acts.foldl (Parser.act p) { s with cs := k } with cs := k' } = s') :
    Parser.run { s with cs := k } p (b :: bs) = Parser.run s' (p + 1) bs := by
  rw [run_next h hd, hs]

theorem tr1 {b : Byte} (h : MethodChar b) : tr 1 b = some ([.mark], 2) := by
  simp [tr, (isMethodChar_iff b).2 h]

theorem methodChar_ne_space {b : Byte} (h : MethodChar b) : (b == 32) = false := by
  revert b; apply byte_forall; decide +kernel
theorem schemeChar_ne {b : Byte} (h : SchemeChar b) : (b == 58) = false ∧ (b == 42) = false ∧ (b == 47) = false := by
  revert b; apply byte_forall; decide +kernel
theorem digit_ne {b : Byte} (h : Digit b) : (b == 46) = false ∧ (b == 13) = false := by
  revert b; apply byte_forall; decide +kernel
theorem tokenChar_ne {b : Byte} (h : TokenChar b) : (b == 58) = false ∧ (b == 13) = false := by
  revert b; apply byte_forall; decide +kernel

/-- The state after `k` method characters. -/
def mcs (k : Nat) : Nat := if k = 1 then 2 else 37 + k

theorem tr_mcs_char {b : Byte} (h : MethodChar b) (k : Nat) (h1 : 1 ≤ k) (h2 : k ≤ 19) :
    tr (mcs k) b = some ([], mcs (k + 1)) := by
  have e := (isMethodChar_iff b).2 h
  have f := methodChar_ne_space h
  unfold mcs
  by_cases hk : k = 1
  · subst hk; simp [tr, e, f]
  · rw [if_neg hk, if_neg (by omega)]
    unfold tr
    split <;> simp_all <;> omega

theorem tr_mcs_bad {b : Byte} (h : ¬ MethodChar b) (h' : b ≠ 32) (k : Nat) (h1 : 1 ≤ k) (h2 : k ≤ 20) :
    tr (mcs k) b = none := by
  have e : isMethodChar b = false := by rw [Bool.eq_false_iff]; exact fun h' => h ((isMethodChar_iff b).1 h')
  unfold mcs
  by_cases hk : k = 1
  · subst hk; simp [tr, e, h']
  · rw [if_neg hk]
    unfold tr
    split <;> first | omega | simp_all [trOnly]

theorem tr_mcs_20 {b : Byte} (h' : b ≠ 32) : tr (mcs 20) b = none := by
  simp [mcs, tr, trOnly, h']

theorem tr_mcs_space (k : Nat) (h1 : 1 ≤ k) (h2 : k ≤ 20) : tr (mcs k) 32 = some ([.method], 3) := by
  unfold mcs
  by_cases hk : k = 1
  · subst hk; simp [tr]
  · rw [if_neg hk]
    unfold tr
    split <;> first | omega | (simp_all [trOnly]; done) | (simp_all [trOnly]; omega)

theorem run_method_tail {s : Parser} {rest : Bytes} : ∀ (m : Bytes) (p k : Nat), (∀ b ∈ m, MethodChar b) →
    1 ≤ k → k + m.length ≤ 20 →
    Parser.run { s with cs := mcs k } p (m ++ rest) = Parser.run { s with cs := mcs (k + m.length) } (p + m.length) rest
  | [], _, _, _, _, _ => rfl
  | b :: m, p, k, h, hk, hl => by
    simp at hl
    rw [List.cons_append, run_step (tr_mcs_char (h b (by simp)) k hk (by omega)),
      run_method_tail m (p + 1) (k + 1) (fun c hc => h c (by simp [hc])) (by omega) (by omega)]
    simp [show k + 1 + m.length = k + (m.length + 1) by omega, show p + 1 + m.length = p + (m.length + 1) by omega]

theorem run_method {s : Parser} {rest : Bytes} (m : Bytes) (p : Nat) (hl : 1 ≤ m.length ∧ m.length ≤ 20)
    (hm : ∀ b ∈ m, MethodChar b) :
    Parser.run { s with cs := 1 } p (m ++ 32 :: rest)
      = Parser.run { s with mark := p, method := ⟨p, m.length⟩, cs := 3 } (p + m.length + 1) rest := by
  match m, hl with
  | b :: m, hl =>
    simp at hl
    rw [List.cons_append, run_to [.mark] 2 (tr1 (hm b (by simp))) (by simp) rfl]
    have h2 : (2 : Nat) = mcs 1 := rfl
    rw [h2]
    have := run_method_tail (s := { s with mark := p }) (rest := 32 :: rest) m (p + 1) 1
      (fun c hc => hm c (by simp [hc])) (by omega) (by omega)
    refine this.trans ?_
    rw [run_to [.method] 3 (tr_mcs_space _ (by omega) (by omega)) (by simp) rfl]
    simp [Parser.act, show p + 1 + m.length = p + (m.length + 1) by omega, show p + (m.length + 1) - p = m.length + 1 by omega]

/-! ### target -/

/-- The delimiter after the target and the state it leads to. -/
def delimNext (d : Byte) (k : Nat) : Prop := (d = 32 ∧ k = 5) ∨ (d = 35 ∧ k = 20)

/-- Effect of a target that starts at position `p`. -/
def Spec.Target.apply (t : Target) (p : Nat) (s : Parser) : Parser :=
  match t with
  | .star => { s with mark := p, uri := ⟨p, t.uri.length⟩ }
  | .absolute _ _ => { s with mark := p, uri := ⟨p, t.uri.length⟩ }
  | .origin path none => { s with mark := p, uri := ⟨p, t.uri.length⟩, path := ⟨p, path.length⟩ }
  | .origin path (some q) =>
    { s with mark := p, uri := ⟨p, t.uri.length⟩, path := ⟨p, path.length⟩,
             queryStart := p + path.length + 1, query := ⟨p + path.length + 1, q.length⟩ }

theorem tr3_scheme {b : Byte} (h : SchemeChar b) : tr 3 b = some ([.mark], 25) := by
  revert b; apply byte_forall; decide +kernel
theorem tr25_scheme {b : Byte} (h : SchemeChar b) : tr 25 b = some ([], 25) := by
  simp [tr, schemeChar_ne h, (isSchemeChar_iff b).2 h]

theorem run_absTail {s : Parser} {rest : Bytes} (t : Bytes) (p : Nat) (ht : EscText UriChar t) (d : Byte) (k : Nat)
    (hd : delimNext d k) : Parser.run { s with cs := 26 } p (t ++ d :: rest)
      = Parser.run { s with uri := ⟨s.mark, p + t.length - s.mark⟩, cs := k } (p + t.length + 1) rest := by
  rw [run_esc phase26 ht]
  rcases hd with ⟨rfl, rfl⟩ | ⟨rfl, rfl⟩
  · exact run_to [.uri] 5 (by simp [tr]) (by simp) rfl
  · exact run_to [.uri] 20 (by simp [tr]) (by simp) rfl

theorem run_target {s : Parser} {rest : Bytes} (t : Target) (p : Nat) (ht : t.Wf) (d : Byte) (k : Nat)
    (hd : delimNext d k) : Parser.run { s with cs := 3 } p (t.uri ++ d :: rest)
      = Parser.run { t.apply p s with cs := k } (p + t.uri.length + 1) rest := by
  match t, ht with
  | .star, _ =>
    simp only [Target.uri, List.cons_append, List.nil_append]
    rw [run_to [.mark] 4 (by simp [tr]) (by simp) rfl]
    rcases hd with ⟨rfl, rfl⟩ | ⟨rfl, rfl⟩
    · refine (run_to [.uri] 5 (by simp [tr]) (by simp) rfl).trans ?_
      simp [Target.apply, Target.uri, Parser.act]
    · refine (run_to [.uri] 20 (by simp [tr]) (by simp) rfl).trans ?_
      simp [Target.apply, Target.uri, Parser.act]
  | .absolute scheme r, ⟨h1, h2⟩ =>
    cases scheme with
    | nil =>
      simp only [Target.uri, List.nil_append, List.cons_append]
      rw [run_to [.mark] 26 (by simp [tr]) (by simp) rfl]
      refine (run_absTail (s := { s with mark := p }) r (p + 1) h2 d k hd).trans ?_
      simp [Target.apply, Target.uri, show p + 1 + r.length - p = r.length + 1 by omega,
        show p + 1 + r.length = p + (r.length + 1) by omega]
    | cons c cs =>
      simp only [Target.uri, List.append_assoc, List.cons_append, List.nil_append]
      rw [run_to [.mark] 25 (tr3_scheme (h1 c (by simp))) (by simp) rfl]
      refine (run_loop (s := { s with mark := p }) cs (p + 1)
        (fun b hb => tr25_scheme (h1 b (by simp [hb])))).trans ?_
      rw [run_to [] 26 (by simp [tr]) (by simp) rfl]
      refine (run_absTail (s := { s with mark := p }) r _ h2 d k hd).trans ?_
      have e : p + 1 + cs.length + 1 + r.length - p = cs.length + (r.length + 1) + 1 := by omega
      have e' : p + 1 + cs.length + 1 + r.length = p + (cs.length + (r.length + 1) + 1) := by omega
      simp [Target.apply, Target.uri, e, e']
  | .origin path none, ⟨⟨q, h1, h2⟩, _⟩ =>
    subst h1
    simp only [Target.uri, List.cons_append]
    rw [run_to [.mark] 30 (by simp [tr]) (by simp) rfl]
    refine (run_esc (s := { s with mark := p }) phase30 h2 (p + 1)).trans ?_
    have e : p + 1 + q.length - p = q.length + 1 := by omega
    have e' : p + 1 + q.length = p + (q.length + 1) := by omega
    rcases hd with ⟨rfl, rfl⟩ | ⟨rfl, rfl⟩
    · refine (run_to [.path, .uri] 5 (by simp [tr]) (by simp) rfl).trans ?_
      simp [Target.apply, Target.uri, Parser.act, e, e']
    · refine (run_to [.path, .uri] 20 (by simp [tr]) (by simp) rfl).trans ?_
      simp [Target.apply, Target.uri, Parser.act, e, e']
  | .origin path (some qs), ⟨⟨q, h1, h2⟩, h3⟩ =>
    subst h1
    have h3 := h3 qs rfl
    simp only [Target.uri, List.cons_append, List.append_assoc, List.nil_append]
    rw [run_to [.mark] 30 (by simp [tr]) (by simp) rfl]
    refine (run_esc (s := { s with mark := p }) phase30 h2 (p + 1)).trans ?_
    have e : p + 1 + q.length - p = q.length + 1 := by omega
    have e' : p + 1 + q.length = p + (q.length + 1) := by omega
    rw [run_to (s' := { s with mark := p, path := ⟨p, q.length + 1⟩, cs := 34 }) [.path] 34 (by simp [tr]) (by simp)
      (by simp [Parser.act, e])]
    -- the query text
    have fin35 : ∀ (s : Parser) (p : Nat),
        Parser.run { s with cs := 35 } p (d :: rest) = Parser.run
          { s with query := ⟨s.queryStart, p - s.queryStart⟩, uri := ⟨s.mark, p - s.mark⟩, cs := k } (p + 1) rest := by
      intro s p
      rcases hd with ⟨rfl, rfl⟩ | ⟨rfl, rfl⟩
      · exact run_to [.query, .uri] 5 (by simp [tr]) (by simp) rfl
      · exact run_to [.query, .uri] 20 (by simp [tr]) (by simp) rfl
    rw [e']
    cases hq : h3 with
    | nil =>
      rcases hd with ⟨rfl, rfl⟩ | ⟨rfl, rfl⟩
      · refine (run_to (s := { s with mark := p, path := ⟨p, q.length + 1⟩ }) [.queryStart, .query, .uri] 5
          (by simp [tr]) (by simp) rfl).trans ?_
        simp only [Parser.act, List.foldl, Target.apply, Target.uri, List.length_cons, List.length_append, List.length_nil]
        congr 1
        simp; omega
      · refine (run_to (s := { s with mark := p, path := ⟨p, q.length + 1⟩ }) [.queryStart, .query, .uri] 20
          (by simp [tr]) (by simp) rfl).trans ?_
        simp only [Parser.act, List.foldl, Target.apply, Target.uri, List.length_cons, List.length_append, List.length_nil]
        congr 1
        simp; omega
    | plain b t hb ht =>
      have hb' := (uriChar_iff b).1 hb
      rw [List.cons_append]
      refine (run_to (s := { s with mark := p, path := ⟨p, q.length + 1⟩ }) [.queryStart] 35 (by simp [tr, hb']) (by simp) rfl).trans ?_
      refine (run_esc (s := { s with mark := p, path := ⟨p, q.length + 1⟩, queryStart := p + (q.length + 1) + 1 })
        phase35 ht _ (rest := d :: rest)).trans ?_
      refine (fin35 { s with mark := p, path := ⟨p, q.length + 1⟩, queryStart := p + (q.length + 1) + 1 } _).trans ?_
      simp only [Target.apply, Target.uri, List.length_cons, List.length_append, List.length_nil]
      congr 1
      · simp; omega
      · omega
    | esc x y t hx hy ht =>
      simp only [List.cons_append]
      refine (run_to (s := { s with mark := p, path := ⟨p, q.length + 1⟩ }) [.queryStart] 36 (by simp [tr]) (by simp) rfl).trans ?_
      refine (run_esc_head (s := { s with mark := p, path := ⟨p, q.length + 1⟩, queryStart := p + (q.length + 1) + 1 })
        phase35 (rest := d :: rest) (t := x :: y :: t) (.esc x y t hx hy ht) _).trans ?_
      refine (fin35 { s with mark := p, path := ⟨p, q.length + 1⟩, queryStart := p + (q.length + 1) + 1 } _).trans ?_
      simp only [Target.apply, Target.uri, List.length_cons, List.length_append, List.length_nil]
      congr 1
      · simp; omega
      · omega
    | uesc x y t hx hy ht =>
      simp only [List.cons_append]
      refine (run_to (s := { s with mark := p, path := ⟨p, q.length + 1⟩ }) [.queryStart] 36 (by simp [tr]) (by simp) rfl).trans ?_
      refine (run_esc_head (s := { s with mark := p, path := ⟨p, q.length + 1⟩, queryStart := p + (q.length + 1) + 1 })
        phase35 (rest := d :: rest) (t := 117 :: x :: y :: t) (.uesc x y t hx hy ht) _).trans ?_
      refine (fin35 { s with mark := p, path := ⟨p, q.length + 1⟩, queryStart := p + (q.length + 1) + 1 } _).trans ?_
      simp only [Target.apply, Target.uri, List.length_cons, List.length_append, List.length_nil]
      congr 1
      · simp; omega
      · omega

theorem run_fragment {s : Parser} {rest : Bytes} (f : Bytes) (p : Nat) (hf : EscText UriChar f) :
    Parser.run { s with cs := 20 } p (f ++ 32 :: rest)
      = Parser.run { s with mark := p, fragment := ⟨p, f.length⟩, cs := 5 } (p + f.length + 1) rest := by
  have fin : ∀ (s : Parser) (p : Nat), Parser.run { s with cs := 21 } p (32 :: rest) = Parser.run
      { s with fragment := ⟨s.mark, p - s.mark⟩, cs := 5 } (p + 1) rest := by
    intro s p; exact run_to [.fragment] 5 (by simp [tr]) (by simp) rfl
  cases hq : hf with
  | nil =>
    refine (run_to [.mark, .fragment] 5 (by simp [tr]) (by simp) rfl).trans ?_
    simp [Parser.act]
  | plain b t hb ht =>
    have hb' := (uriChar_iff b).1 hb
    rw [List.cons_append, run_to [.mark] 21 (by simp [tr, hb']) (by simp) rfl]
    refine (run_esc (s := { s with mark := p }) phase21 ht _).trans ?_
    refine (fin { s with mark := p } _).trans ?_
    congr 1
    · simp; omega
    · simp; omega
  | esc x y t hx hy ht =>
    rw [List.cons_append, run_to [.mark] 22 (by simp [tr]) (by simp) rfl]
    refine (run_esc_head (s := { s with mark := p }) phase21 hf _).trans ?_
    refine (fin { s with mark := p } _).trans ?_
    congr 1
    · simp; omega
    · simp; omega
  | uesc x y t hx hy ht =>
    rw [List.cons_append, run_to [.mark] 22 (by simp [tr]) (by simp) rfl]
    refine (run_esc_head (s := { s with mark := p }) phase21 hf _).trans ?_
    refine (fin { s with mark := p } _).trans ?_
    congr 1
    · simp; omega
    · simp; omega

theorem run_version {s : Parser} {rest : Bytes} (maj min : Bytes) (p : Nat) (h1 : maj ≠ [] ∧ ∀ b ∈ maj, Digit b)
    (h2 : min ≠ [] ∧ ∀ b ∈ min, Digit b) :
    Parser.run { s with cs := 5 } p (b!"HTTP/" ++ maj ++ b!"." ++ min ++ 13 :: 10 :: rest)
      = Parser.run { s with mark := p, version := ⟨p, (b!"HTTP/" ++ maj ++ b!"." ++ min).length⟩, cs := 15 }
          (p + (b!"HTTP/" ++ maj ++ b!"." ++ min).length + 2) rest := by
  obtain ⟨h1a, h1⟩ := h1
  obtain ⟨h2a, h2⟩ := h2
  cases maj with
  | nil => exact absurd rfl h1a
  | cons a maj =>
  cases min with
  | nil => exact absurd rfl h2a
  | cons c min =>
  have dg : ∀ b, Digit b → isDigit b = true := fun b h => (isDigit_iff b).2 h
  simp only [List.append_assoc, List.cons_append, List.nil_append]
  rw [run_to [.mark] 6 (by simp [tr, trOnly]) (by simp) rfl,
    run_to [] 7 (by simp [tr, trOnly]) (by simp) rfl, run_to [] 8 (by simp [tr, trOnly]) (by simp) rfl,
    run_to [] 9 (by simp [tr, trOnly]) (by simp) rfl, run_to [] 10 (by simp [tr, trOnly]) (by simp) rfl,
    run_to [] 11 (by simp [tr, dg a (h1 a (by simp))]) (by simp) rfl]
  refine (run_loop (s := { s with mark := p }) maj _ (fun b hb => ?_)).trans ?_
  · have := h1 b (by simp [hb]); simp [tr, dg b this, digit_ne this]
  rw [run_to [] 12 (by simp [tr]) (by simp) rfl, run_to [] 13 (by simp [tr, dg c (h2 c (by simp))]) (by simp) rfl]
  refine (run_loop (s := { s with mark := p }) min _ (fun b hb => ?_)).trans ?_
  · have := h2 b (by simp [hb]); simp [tr, dg b this, digit_ne this]
  rw [run_to [.version] 14 (by simp [tr]) (by simp) rfl, run_to [] 15 (by simp [tr, trOnly]) (by simp) rfl]
  congr 1
  · simp [Parser.act]; omega
  · simp; omega

/-! ### headers -/

/-- The callbacks for header lines that start at position `p`. -/
def hdrRefs : Nat → List HeaderLine → List FieldRef
  | _, [] => []
  | p, h :: hs => ⟨⟨p, h.name.length⟩, ⟨p + h.name.length + 1 + h.spaces, h.value.length⟩⟩
      :: hdrRefs (p + h.render.length) hs

theorem run_header {s : Parser} {rest : Bytes} (h : HeaderLine) (p : Nat) (hw : h.Wf) :
    Parser.run { s with cs := 15 } p (h.render ++ rest)
      = Parser.run { s with
          mark := p + h.name.length + 1 + h.spaces, fieldStart := p, fieldLen := h.name.length,
          fields := s.fields ++ [⟨⟨p, h.name.length⟩, ⟨p + h.name.length + 1 + h.spaces, h.value.length⟩⟩], cs := 15 }
          (p + h.render.length) rest := by
  obtain ⟨name, n, value⟩ := h
  obtain ⟨h1, h2, h3, h4⟩ := hw
  simp only at h1 h2 h3 h4
  cases name with
  | nil => exact absurd rfl h1
  | cons a name =>
  have tk : ∀ b, TokenChar b → isTokenChar b = true := fun b h => (isTokenChar_iff b).2 h
  simp only [HeaderLine.render, List.append_assoc, List.cons_append, List.nil_append]
  rw [run_to [.fieldStart] 17 (by have := h2 a (by simp); simp [tr, tk a this, tokenChar_ne this]) (by simp) rfl]
  refine (run_loop (s := { s with fieldStart := p }) name _ (fun b hb => ?_)).trans ?_
  · have := h2 b (by simp [hb]); simp [tr, tk b this, tokenChar_ne this]
  rw [run_to [.fieldLen] 18 (by simp [tr]) (by simp) rfl]
  have e : p + 1 + name.length - p = name.length + 1 := by omega
  have sp : ∀ n (s : Parser) (p : Nat) (r : Bytes), ∃ m, Parser.run { s with cs := 18 } p (List.replicate n 32 ++ r)
      = Parser.run { s with mark := m, cs := 18 } (p + n) r := by
    intro n
    induction n with
    | zero => intro s p r; exact ⟨s.mark, rfl⟩
    | succ n ih =>
      intro s p r
      rw [List.replicate_succ, List.cons_append, run_to [.mark] 18 (by simp [tr]) (by simp) rfl]
      obtain ⟨m, hm⟩ := ih { s with mark := p } (p + 1) r
      exact ⟨m, hm.trans (by congr 1; omega)⟩
  obtain ⟨m, hm⟩ := sp n { s with fieldStart := p, fieldLen := name.length + 1 } (p + 1 + name.length + 1)
    (value ++ 13 :: 10 :: rest)
  refine (show _ = _ from ?_ : _ = Parser.run { { s with fieldStart := p, fieldLen := name.length + 1 } with cs := 18 } (p + 1 + name.length + 1)
    (List.replicate n 32 ++ (value ++ 13 :: 10 :: rest))).trans (hm.trans ?_)
  · simp [Parser.act, e]
  cases value with
  | nil =>
    rw [List.nil_append]
    refine (run_to (s := { s with fieldStart := p, fieldLen := name.length + 1, mark := m }) [.mark, .writeValue] 14
      (by simp [tr]) (by simp) rfl).trans ?_
    refine (run_to [] 15 (by simp [tr, trOnly]) (by simp) rfl).trans ?_
    simp only [Parser.act, List.foldl]
    congr 1
    · simp; omega
    · simp; omega
  | cons v value =>
    simp at h3 h4
    have hv : (v == 13) = false ∧ (v == 32) = false := by
      constructor
      · simp; exact fun e => h3.1 e.symm
      · simp; exact h4
    rw [List.cons_append]
    refine (run_to (s := { s with fieldStart := p, fieldLen := name.length + 1, mark := m }) [.mark] 19
      (by simp [tr, hv]) (by simp) rfl).trans ?_
    refine (run_loop (s := { s with fieldStart := p, fieldLen := name.length + 1, mark := p + 1 + name.length + 1 + n })
      value _ (fun b hb => ?_)).trans ?_
    · have : b ≠ 13 := by intro e; subst e; exact h3.2 hb
      simp [tr, this]
    refine (run_to [.writeValue] 14 (by simp [tr]) (by simp) rfl).trans ?_
    refine (run_to [] 15 (by simp [tr, trOnly]) (by simp) rfl).trans ?_
    simp only [Parser.act, List.foldl]
    congr 1
    · simp; omega
    · simp; omega

theorem run_headers {rest : Bytes} : ∀ (hs : List HeaderLine) (s : Parser) (p : Nat), (∀ h ∈ hs, h.Wf) →
    ∃ m fs fl, Parser.run { s with cs := 15 } p ((hs.map HeaderLine.render).flatten ++ rest)
      = Parser.run { s with mark := m, fieldStart := fs, fieldLen := fl, fields := s.fields ++ hdrRefs p hs, cs := 15 }
          (p + ((hs.map HeaderLine.render).flatten).length) rest
  | [], s, p, _ => ⟨s.mark, s.fieldStart, s.fieldLen, by simp [hdrRefs]⟩
  | h :: hs, s, p, hw => by
    obtain ⟨m, fs, fl, ih⟩ := run_headers (rest := rest) hs
      { s with mark := p + h.name.length + 1 + h.spaces, fieldStart := p, fieldLen := h.name.length,
               fields := s.fields ++ [⟨⟨p, h.name.length⟩, ⟨p + h.name.length + 1 + h.spaces, h.value.length⟩⟩] }
      (p + h.render.length) (fun g hg => hw g (by simp [hg]))
    refine ⟨m, fs, fl, ?_⟩
    simp only [List.map_cons, List.flatten_cons, List.append_assoc]
    rw [run_header h p (hw h (by simp))]
    refine ih.trans ?_
    congr 1
    · simp [hdrRefs]
    · simp; omega

end Pillow
