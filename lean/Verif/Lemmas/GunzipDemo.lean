import Verif.Lemmas.Gunzip
/-!
# A small decoder that meets the assumptions on zlib

The format: the two bytes with which gzip data begins, any bytes other than 0, each of which stands for 258 copies of itself (the longest match of gzip), and a 0
at the end. As in zlib, the two bytes are examined when both are there, and one code may be taken that cannot be delivered yet.
-/
namespace Pillow.Spec
open Pillow

inductive DemoState where
  | start
  | magic (c : Byte)
  | codes (c : Byte) (k : Nat)
  | done
  | broken
deriving DecidableEq

def demoCodes (c : Byte) (k : Nat) (data : Bytes) (cap : Nat) : Inflated DemoState :=
  if k > cap then ⟨.codes c (k - cap), 0, List.replicate cap c, false⟩
  else match data with
    | [] => ⟨.codes c 0, 0, List.replicate k c, false⟩
    | d :: rest =>
      if d = 0 then ⟨.done, 1, List.replicate k c, false⟩
      else ⟨(demoCodes d 258 rest (cap - k)).state, (demoCodes d 258 rest (cap - k)).taken + 1, List.replicate k c ++ (demoCodes d 258 rest (cap - k)).out, (demoCodes d 258 rest (cap - k)).bad⟩

def demoMagic (c d : Byte) (taken : Nat) (rest : Bytes) (cap : Nat) : Inflated DemoState :=
  if c = 31 ∧ d = 139 then ⟨(demoCodes 0 0 rest cap).state, (demoCodes 0 0 rest cap).taken + taken, (demoCodes 0 0 rest cap).out, (demoCodes 0 0 rest cap).bad⟩
  else ⟨.broken, taken, [], true⟩

def demoInflate : DemoState → Bytes → Nat → Inflated DemoState
  | .start, [], _ => ⟨.start, 0, [], true⟩
  | .start, [c], _ => ⟨.magic c, 1, [], false⟩
  | .start, c :: d :: rest, cap => demoMagic c d 2 rest cap
  | .magic c, [], _ => ⟨.magic c, 0, [], true⟩
  | .magic c, d :: rest, cap => demoMagic c d 1 rest cap
  | .codes c k, data, cap => demoCodes c k data cap
  | .done, _, _ => ⟨.done, 0, [], false⟩
  | .broken, _, _ => ⟨.broken, 0, [], true⟩

def demoZlib : Zlib := ⟨DemoState, .start, demoInflate⟩

def demoExpand (cs : Bytes) : Bytes := cs.flatMap (List.replicate 258)

def demoFormat : Format where
  Whole w := ∃ cs, 0 ∉ cs ∧ w = 31 :: 139 :: (cs ++ [0])
  plain i := match i with
    | c :: d :: r => if c = 31 ∧ d = 139 then demoExpand (r.takeWhile (· ≠ 0)) else []
    | _ => []

def demoAt (i o : Bytes) : DemoState → Prop
  | .start => i = [] ∧ o = []
  | .magic c => i = [c] ∧ o = []
  | .codes c k => ∃ cs, i = 31 :: 139 :: cs ∧ 0 ∉ cs ∧ o ++ List.replicate k c = demoExpand cs
  | .done => ∃ cs, i = 31 :: 139 :: (cs ++ [0]) ∧ 0 ∉ cs ∧ o = demoExpand cs
  | .broken => False

theorem takeWhile_free : ∀ {cs : Bytes}, 0 ∉ cs → cs.takeWhile (· ≠ 0) = cs
  | [], _ => rfl
  | c :: cs, h => by
    have hc : c ≠ 0 := fun e => h (by simp [e])
    rw [List.takeWhile_cons, if_pos (by simpa using hc), takeWhile_free fun hx => h (by simp [hx])]

theorem takeWhile_zero {cs : Bytes} (h : 0 ∉ cs) : (cs ++ [0]).takeWhile (· ≠ 0) = cs := by
  rw [List.takeWhile_append, takeWhile_free h]
  simp

theorem plain_codes {cs : Bytes} (h : 0 ∉ cs) : demoFormat.plain (31 :: 139 :: cs) = demoExpand cs := by
  show (if (31 : Byte) = 31 ∧ (139 : Byte) = 139 then demoExpand (cs.takeWhile (· ≠ 0)) else []) = _
  rw [if_pos ⟨rfl, rfl⟩, takeWhile_free h]

theorem plain_whole {cs : Bytes} (h : 0 ∉ cs) : demoFormat.plain (31 :: 139 :: (cs ++ [0])) = demoExpand cs := by
  show (if (31 : Byte) = 31 ∧ (139 : Byte) = 139 then demoExpand ((cs ++ [0]).takeWhile (· ≠ 0)) else []) = _
  rw [if_pos ⟨rfl, rfl⟩, takeWhile_zero h]

theorem expand_append (a b : Bytes) : demoExpand (a ++ b) = demoExpand a ++ demoExpand b := List.flatMap_append

theorem demoCodes_facts : ∀ (data : Bytes) (c : Byte) (k cap : Nat) (vs : Bytes), 0 ∉ vs → (data <+: vs ++ [0] ∨ vs ++ [0] <+: data) →
    (demoCodes c k data cap).bad = false ∧ (demoCodes c k data cap).taken ≤ data.length ∧ (demoCodes c k data cap).out.length ≤ cap ∧
    ((∃ c' k', (demoCodes c k data cap).state = .codes c' k' ∧ data.take (demoCodes c k data cap).taken <+: vs ∧
        (demoCodes c k data cap).out ++ List.replicate k' c' = List.replicate k c ++ demoExpand (data.take (demoCodes c k data cap).taken) ∧
        ((demoCodes c k data cap).out.length < cap → (demoCodes c k data cap).taken = data.length ∧ k' = 0)) ∨
      ((demoCodes c k data cap).state = .done ∧ data.take (demoCodes c k data cap).taken = vs ++ [0] ∧ (demoCodes c k data cap).out = List.replicate k c ++ demoExpand vs)) := by
  intro data
  induction data with
  | nil =>
    intro c k cap vs hv hd
    unfold demoCodes
    split
    · rename_i hk
      refine ⟨rfl, by simp, by simp, Or.inl ⟨c, k - cap, rfl, by simp, ?_, fun h => by simp at h⟩⟩
      simp [demoExpand]
      omega
    · rename_i hk
      exact ⟨rfl, by simp, by simp; omega, Or.inl ⟨c, 0, rfl, by simp, by simp [demoExpand], fun _ => ⟨rfl, rfl⟩⟩⟩
  | cons d rest ih =>
    intro c k cap vs hv hd
    unfold demoCodes
    split
    · rename_i hk
      refine ⟨rfl, by simp, by simp, Or.inl ⟨c, k - cap, rfl, by simp, ?_, fun h => by simp at h⟩⟩
      simp [demoExpand]
      omega
    · rename_i hk
      dsimp only
      split
      · rename_i h0
        subst h0
        have : vs = [] := by
          cases vs with
          | nil => rfl
          | cons a vs =>
            rcases hd with hd | hd
            · rw [List.cons_append] at hd
              exact absurd (by rw [(List.cons_prefix_cons.1 hd).1]; simp) hv
            · rw [List.cons_append] at hd
              exact absurd (by rw [(List.cons_prefix_cons.1 hd).1]; simp) hv
        subst this
        exact ⟨rfl, by simp, by simp; omega, Or.inr ⟨rfl, by simp, by simp [demoExpand]⟩⟩
      · rename_i h0
        obtain ⟨vs', e⟩ : ∃ vs', vs = d :: vs' := by
          cases vs with
          | nil =>
            rcases hd with hd | hd
            · exact absurd (List.cons_prefix_cons.1 hd).1 h0
            · exact absurd (List.cons_prefix_cons.1 hd).1.symm h0
          | cons a vs =>
            rcases hd with hd | hd
            · rw [List.cons_append] at hd
              exact ⟨vs, by rw [(List.cons_prefix_cons.1 hd).1]⟩
            · rw [List.cons_append] at hd
              exact ⟨vs, by rw [(List.cons_prefix_cons.1 hd).1]⟩
        subst e
        obtain ⟨g1, g2, g3, g4⟩ := ih d 258 (cap - k) vs' (fun hx => hv (by simp [hx])) (by
          rcases hd with hd | hd
          · exact Or.inl (List.cons_prefix_cons.1 hd).2
          · exact Or.inr (List.cons_prefix_cons.1 hd).2)
        generalize demoCodes d 258 rest (cap - k) = r at g1 g2 g3 g4
        refine ⟨g1, by simp; omega, by simp; omega, ?_⟩
        rcases g4 with ⟨c', k', f1, f2, f3, f4⟩ | ⟨f1, f2, f3⟩
        · refine Or.inl ⟨c', k', f1, ?_, ?_, fun hl => ?_⟩
          · rw [List.take_succ_cons]; exact List.cons_prefix_cons.2 ⟨rfl, f2⟩
          · rw [List.append_assoc, f3, List.take_succ_cons]
            rfl
          · dsimp only at hl ⊢
            rw [List.length_append, List.length_replicate] at hl
            obtain ⟨q1, q2⟩ := f4 (by omega)
            exact ⟨by rw [q1]; rfl, q2⟩
        · refine Or.inr ⟨f1, ?_, ?_⟩
          · rw [List.take_succ_cons, f2]; rfl
          · rw [f3]; rfl

/-- A beginning of a stream: nothing, one byte, or the two bytes and codes, or all of it. -/
theorem begins_cases {i cs : Bytes} (h : i <+: 31 :: 139 :: (cs ++ [0])) : i = [] ∨ i = [31] ∨ (∃ a b, i = 31 :: 139 :: a ∧ cs = a ++ b) ∨ i = 31 :: 139 :: (cs ++ [0]) := by
  match i, h with
  | [], _ => exact Or.inl rfl
  | [x], h => rw [(List.cons_prefix_cons.1 h).1]; exact Or.inr (Or.inl rfl)
  | x :: y :: a, h =>
    obtain ⟨h1, h'⟩ := List.cons_prefix_cons.1 h
    obtain ⟨h2, h''⟩ := List.cons_prefix_cons.1 h'
    subst h1 h2
    right; right
    rcases (List.prefix_concat_iff (a := (0 : Byte))).1 h'' with h | h
    · exact Or.inr (by rw [h])
    · obtain ⟨b, h⟩ := h
      exact Or.inl ⟨a, b, rfl, h.symm⟩

theorem expand_mono {a cs : Bytes} (h : a <+: cs) : demoExpand a <+: demoExpand cs := by
  obtain ⟨b, h⟩ := h
  rw [← h, expand_append]
  exact List.prefix_append _ _

theorem plain_pre {a b : Bytes} (h : 0 ∉ a ++ b) : 0 ∉ a := fun hx => h (by simp [hx])

theorem takeWhile_mono {p : Byte → Bool} : ∀ {a b : Bytes}, a <+: b → a.takeWhile p <+: b.takeWhile p
  | [], _, _ => by simp
  | x :: a, [], h => by simp at h
  | x :: a, y :: b, h => by
    obtain ⟨h1, h2⟩ := List.cons_prefix_cons.1 h
    subst h1
    rw [List.takeWhile_cons, List.takeWhile_cons]
    split
    · exact List.cons_prefix_cons.2 ⟨rfl, takeWhile_mono h2⟩
    · exact List.prefix_refl _

theorem plain_mono {i j : Bytes} (h : i <+: j) : demoFormat.plain i <+: demoFormat.plain j := by
  match i, j, h with
  | [], _, _ => exact List.nil_prefix
  | [x], _, _ => exact List.nil_prefix
  | x :: y :: a, [], h => simp at h
  | x :: y :: a, [z], h => exact absurd (List.cons_prefix_cons.1 h).2 (by simp)
  | x :: y :: a, z :: u :: b, h =>
    obtain ⟨h1, h'⟩ := List.cons_prefix_cons.1 h
    obtain ⟨h2, h''⟩ := List.cons_prefix_cons.1 h'
    subst h1 h2
    show (if x = 31 ∧ y = 139 then demoExpand (a.takeWhile (· ≠ 0)) else []) <+: (if x = 31 ∧ y = 139 then demoExpand (b.takeWhile (· ≠ 0)) else [])
    split
    · exact expand_mono (takeWhile_mono h'')
    · exact List.prefix_refl _

/-- One call in the middle of the codes; `i'` is what it has taken. -/
theorem codes_step {cs a o data : Bytes} {c : Byte} {k cap : Nat} (hcs : 0 ∉ cs) {b : Bytes} (hab : cs = a ++ b) (ho : o ++ List.replicate k c = demoExpand a)
    (hd : data <+: b ++ [0] ∨ b ++ [0] <+: data) :
    (demoCodes c k data cap).bad = false ∧ (demoCodes c k data cap).taken ≤ data.length ∧ (demoCodes c k data cap).out.length ≤ cap ∧
    31 :: 139 :: (a ++ data.take (demoCodes c k data cap).taken) <+: 31 :: 139 :: (cs ++ [0]) ∧
    demoAt (31 :: 139 :: (a ++ data.take (demoCodes c k data cap).taken)) (o ++ (demoCodes c k data cap).out) (demoCodes c k data cap).state ∧
    ((demoCodes c k data cap).out.length < cap → (demoCodes c k data cap).taken = data.length ∨ 31 :: 139 :: (a ++ data.take (demoCodes c k data cap).taken) = 31 :: 139 :: (cs ++ [0])) ∧
    ((demoCodes c k data cap).out.length < cap → o ++ (demoCodes c k data cap).out = demoFormat.plain (31 :: 139 :: (a ++ data.take (demoCodes c k data cap).taken))) := by
  subst hab
  have hb : 0 ∉ b := fun hx => hcs (by simp [hx])
  obtain ⟨g1, g2, g3, g4⟩ := demoCodes_facts data c k cap b hb hd
  generalize demoCodes c k data cap = r at g1 g2 g3 g4
  refine ⟨g1, g2, g3, ?_⟩
  rcases g4 with ⟨c', k', f1, f2, f3, f4⟩ | ⟨f1, f2, f3⟩
  · obtain ⟨b', hb'⟩ := f2
    generalize data.take r.taken = t at hb' f3
    subst hb'
    have ht : 0 ∉ a ++ t := fun hx => hcs (by simp at hx ⊢; rcases hx with hx | hx <;> simp [hx])
    refine ⟨?_, ?_, fun hl => Or.inl (f4 hl).1, fun hl => ?_⟩
    · simp only [List.cons_prefix_cons, true_and, List.append_assoc, List.prefix_append_right_inj]
      exact List.prefix_append _ _
    · rw [f1]
      exact ⟨a ++ t, rfl, ht, by rw [List.append_assoc, f3, ← List.append_assoc, ho, expand_append]⟩
    · rw [plain_codes ht, expand_append, ← ho]
      rw [(f4 hl).2] at f3
      simp only [List.replicate_zero, List.append_nil] at f3
      rw [f3, List.append_assoc]
  · rw [f2, f3, f1]
    have e : a ++ (b ++ [0]) = a ++ b ++ [0] := by simp
    rw [e]
    refine ⟨List.prefix_refl _, ⟨a ++ b, rfl, hcs, ?_⟩, fun _ => Or.inr rfl, fun _ => ?_⟩
    · rw [← List.append_assoc, ho, expand_append]
    · rw [plain_whole hcs, ← List.append_assoc, ho, expand_append]

/-- **The assumptions on zlib can be met.** -/
theorem demoZlib_decodes : Decodes demoFormat demoZlib demoAt where
  nothing := rfl
  mono := fun _ h _ => plain_mono h
  init := ⟨rfl, rfl⟩
  within := by
    intro i o w s ha _ _
    cases s with
    | start => rw [ha.2]; exact List.nil_prefix
    | magic c => rw [ha.2]; exact List.nil_prefix
    | codes c k =>
      obtain ⟨cs, rfl, h2, h3⟩ := ha
      rw [plain_codes h2, ← h3]
      exact List.prefix_append _ _
    | done =>
      obtain ⟨cs, rfl, h2, h3⟩ := ha
      rw [plain_whole h2, h3]
      exact List.prefix_refl _
    | broken => exact ha.elim
  last := by
    rintro o w s ha ⟨cs, hcs, rfl⟩
    cases s with
    | start => cases ha.1
    | magic c => cases ha.1
    | codes c k =>
      obtain ⟨cs', h1, h2, h3⟩ := ha
      injection h1 with _ h1; injection h1 with _ h1
      exact absurd (by rw [← h1]; simp) h2
    | done =>
      obtain ⟨cs', h1, h2, h3⟩ := ha
      rw [h1, plain_whole h2, h3]
    | broken => exact ha.elim
  step := by
    rintro i o w data s cap ha ⟨cs, hcs, rfl⟩ hi hne hd hcap hc
    have hz : (0 : Byte) ∉ cs := hcs
    cases s with
    | start =>
      obtain ⟨rfl, rfl⟩ := ha
      rw [List.nil_append] at hc
      simp only [List.nil_append]
      match data, hd, hc with
      | [x], _, hc =>
        have hx : x = 31 := by
          rcases hc with hc | hc
          · exact (List.cons_prefix_cons.1 hc).1
          · have := hc.length_le; simp at this
        subst hx
        exact ⟨rfl, Nat.le_refl _, by simp [demoZlib, demoInflate], ⟨139 :: (cs ++ [0]), rfl⟩, ⟨rfl, rfl⟩, fun _ => Or.inl rfl, fun _ => rfl⟩
      | x :: y :: rest, _, hc =>
        have hx : x = 31 ∧ y = 139 ∧ (rest <+: cs ++ [0] ∨ cs ++ [0] <+: rest) := by
          rcases hc with hc | hc
          · exact ⟨(List.cons_prefix_cons.1 hc).1, (List.cons_prefix_cons.1 (List.cons_prefix_cons.1 hc).2).1, Or.inl (List.cons_prefix_cons.1 (List.cons_prefix_cons.1 hc).2).2⟩
          · exact ⟨(List.cons_prefix_cons.1 hc).1.symm, (List.cons_prefix_cons.1 (List.cons_prefix_cons.1 hc).2).1.symm, Or.inr (List.cons_prefix_cons.1 (List.cons_prefix_cons.1 hc).2).2⟩
        obtain ⟨rfl, rfl, hr⟩ := hx
        have e : demoZlib.inflate DemoState.start (31 :: 139 :: rest) cap = ⟨(demoCodes 0 0 rest cap).state, (demoCodes 0 0 rest cap).taken + 2, (demoCodes 0 0 rest cap).out, (demoCodes 0 0 rest cap).bad⟩ := rfl
        rw [e]
        obtain ⟨g1, g2, g3, g4, g5, g6, g7⟩ := codes_step (cs := cs) (a := []) (b := cs) (o := []) (c := 0) (k := 0) (cap := cap) hz rfl rfl hr
        exact ⟨g1, by dsimp only; simp only [List.length_cons]; omega, g3, g4, g5, fun hl => (g6 hl).imp (fun h => by dsimp only at h ⊢; simp only [List.length_cons]; omega) id, g7⟩
    | magic c =>
      obtain ⟨rfl, rfl⟩ := ha
      have hc0 : c = 31 := (List.cons_prefix_cons.1 hi).1
      subst hc0
      match data, hd, hc with
      | y :: rest, _, hc =>
        have hx : y = 139 ∧ (rest <+: cs ++ [0] ∨ cs ++ [0] <+: rest) := by
          rcases hc with hc | hc
          · exact ⟨(List.cons_prefix_cons.1 (List.cons_prefix_cons.1 hc).2).1, Or.inl (List.cons_prefix_cons.1 (List.cons_prefix_cons.1 hc).2).2⟩
          · exact ⟨(List.cons_prefix_cons.1 (List.cons_prefix_cons.1 hc).2).1.symm, Or.inr (List.cons_prefix_cons.1 (List.cons_prefix_cons.1 hc).2).2⟩
        obtain ⟨rfl, hr⟩ := hx
        have e : demoZlib.inflate (DemoState.magic 31) (139 :: rest) cap = ⟨(demoCodes 0 0 rest cap).state, (demoCodes 0 0 rest cap).taken + 1, (demoCodes 0 0 rest cap).out, (demoCodes 0 0 rest cap).bad⟩ := rfl
        rw [e]
        obtain ⟨g1, g2, g3, g4, g5, g6, g7⟩ := codes_step (cs := cs) (a := []) (b := cs) (o := []) (c := 0) (k := 0) (cap := cap) hz rfl rfl hr
        exact ⟨g1, by dsimp only; simp only [List.length_cons]; omega, g3, g4, g5, fun hl => (g6 hl).imp (fun h => by dsimp only at h ⊢; simp only [List.length_cons]; omega) id, g7⟩
    | codes c k =>
      obtain ⟨a, rfl, h2, h3⟩ := ha
      rcases begins_cases hi with h | h | ⟨a', b, h, hab⟩ | h
      · cases h
      · cases h
      · injection h with _ h; injection h with _ h
        subst h
        have hr : data <+: b ++ [0] ∨ b ++ [0] <+: data := by
          subst hab
          simpa [List.cons_prefix_cons, List.append_assoc, List.prefix_append_right_inj] using hc
        exact codes_step hz hab h3 hr
      · exact absurd h hne
    | done =>
      obtain ⟨cs', rfl, h2, h3⟩ := ha
      rcases begins_cases hi with h | h | ⟨a', b, h, hab⟩ | h
      · cases h
      · cases h
      · injection h with _ h; injection h with _ h
        exact absurd (by rw [hab, ← h]; simp) hcs
      · exact absurd h hne
    | broken => exact ha.elim
  idle := by
    rintro o w data s cap ha ⟨cs, hcs, rfl⟩ hd hcap
    cases s with
    | start => cases ha.1
    | magic c => cases ha.1
    | codes c k =>
      obtain ⟨cs', h1, h2, h3⟩ := ha
      injection h1 with _ h1; injection h1 with _ h1
      exact absurd (by rw [← h1]; simp) h2
    | done => exact ⟨rfl, rfl, rfl, ha⟩
    | broken => exact ha.elim

end Pillow.Spec
