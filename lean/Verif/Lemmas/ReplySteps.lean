import Verif.Lemmas.RespParser
import Verif.Spec.Reply
import Verif.Lemmas.ThinComplete
/-!
# Runs of the parser over parts of a response
-/
namespace Pillow
open Spec
variable {σ : Type}

/-- A parser that differs in what changes within a head. -/
def at_ (q : HParser) (st : PState) (hs : HState) (i n : Nat) : HParser := { q with state := st, hstate := hs, index := i, nread := n }

/-- Parsing the bytes `bs` brings the parser from `p` and `s` to `p'` and `s'`. -/
def Steps (cb : CB σ) (Rel : σ → σ → Prop) (p : HParser) (s : σ) (bs : Bytes) (p' : HParser) (s' : σ) : Prop :=
  Good 0 p → p.errno = .ok → Good 0 p' ∧ p'.errno = .ok ∧
    ∀ rest pos, Agree Rel (execLoop cb p s (fresh p) (bs ++ rest) pos) (execLoop cb p' s' (fresh p') rest (pos + bs.length))

section
variable {cb : CB σ} {F V B : Bytes → σ → σ} {Rel : σ → σ → Prop}

theorem Steps.nil (hL : Laws cb F V B Rel) (p : HParser) (s : σ) : Steps cb Rel p s [] p s :=
  fun hg he => ⟨hg, he, fun _ _ => Agree.refl hL _⟩

theorem Steps.trans (hL : Laws cb F V B Rel) {p p1 p2 : HParser} {s s1 s2 : σ} {a b : Bytes} (h : Steps cb Rel p s a p1 s1)
    (h' : Steps cb Rel p1 s1 b p2 s2) : Steps cb Rel p s (a ++ b) p2 s2 := by
  intro hg he
  obtain ⟨g1, e1, k1⟩ := h hg he
  obtain ⟨g2, e2, k2⟩ := h' g1 e1
  refine ⟨g2, e2, fun rest pos => ?_⟩
  have := (k1 (b ++ rest) pos).trans hL (k2 rest (pos + a.length))
  simpa [Nat.add_assoc] using this

theorem step_go (hL : Laws cb F V B Rel) {p p1 : HParser} {s s1 : σ} {m1 : Marks} {ch : Byte}
    (hb : p.state ≠ .bodyIdentity ∧ p.state ≠ .chunkData ∧ p.state ≠ .bodyEof) (hn : p.nread + 1 ≤ maxHeaderSize ∨ p.state.isHeader = false)
    (hw : switch cb (counted p) s (fresh p) ch [ch] = .go p1 s1 m1 1) : Steps cb Rel p s [ch] p1 (flush F V B s1 (m1.adv [ch])) := by
  intro hg he
  have hc := counted_good hg
  have hce : (counted p).errno = .ok := (counted_facts p).2.trans he
  have hr := switch_good hL.tame (s := s) (m := fresh p) (ch := ch) (tl := []) hc hce
  have hk := switch_marks_all hL (s := s) (m := fresh p) (ch := ch) (rest := [ch]) (fresh_ok p).counted hce hc
  rw [hw] at hr hk
  refine ⟨hr.1, hr.2.1, fun rest pos => ?_⟩
  rw [List.singleton_append, execLoop_cons, if_neg, switch_rest (ch :: rest) [ch], hw]
  · exact execLoop_fresh hL _ _ _ _ _ (adv_ok hk _) hr.2.1 hr.1
  · rw [(counted_facts p).1]; exact hb.1
  · rw [(counted_facts p).1]; exact hb.2.1
  · rw [(counted_facts p).1]; exact hb.2.2
  · unfold counted
    rcases hn with hn | hn
    · split
      · rename_i h; simp only [h, Bool.true_and, decide_eq_true_eq]; omega
      · rename_i h; simp [h]
    · simp [hn]

/-- A pass that leaves no marks. -/
theorem step_plain (hL : Laws cb F V B Rel) {p p1 : HParser} {s s1 : σ} {ch : Byte}
    (hb : p.state ≠ .bodyIdentity ∧ p.state ≠ .chunkData ∧ p.state ≠ .bodyEof) (hn : p.nread + 1 ≤ maxHeaderSize ∨ p.state.isHeader = false)
    (hw : switch cb (counted p) s (fresh p) ch [ch] = .go p1 s1 {} 1) : Steps cb Rel p s [ch] p1 s1 := step_go hL hb hn hw

/-! ## Numbers -/

/-- The value of decimal digits. -/
def dec (a : Nat) (s : Bytes) : Nat := s.foldl (fun a c => a * 10 + (c.toNat - 48)) a

theorem dec_cons (a : Nat) (c : Byte) (s : Bytes) : dec a (c :: s) = dec (a * 10 + (c.toNat - 48)) s := by
  unfold dec; rw [List.foldl_cons]

theorem dec_mono : ∀ (s : Bytes) (a : Nat), a ≤ dec a s
  | [], a => Nat.le_refl a
  | c :: s, a => by rw [dec_cons]; exact Nat.le_trans (by omega) (dec_mono s _)

theorem hexVal_dec (c : Byte) : ∀ d, hexVal c = some d → d < 10 → isNum c = true ∧ d = c.toNat - 48 := by
  intro d h hd
  have key : ∀ c : Byte, (match hexVal c with | some d => if d < 10 then isNum c && d == c.toNat - 48 else true | none => true) = true := by
    apply byte_forall; decide +kernel
  have := key c
  rw [h] at this
  simpa [hd] using this

theorem readFold_none (base : Nat) : ∀ s : Bytes, s.foldl (fun acc c => do
    let a ← acc
    let d ← hexVal c
    if d < base then some (base * a + d) else none) (none : Option Nat) = none
  | [] => rfl
  | c :: s => by rw [List.foldl_cons]; exact readFold_none base s

theorem readFold_dec : ∀ (s : Bytes) (a n : Nat), s.foldl (fun acc c => do
    let a ← acc
    let d ← hexVal c
    if d < 10 then some (10 * a + d) else none) (some a) = some n → (∀ c ∈ s, isNum c = true) ∧ dec a s = n
  | [], a, n, h => by simp at h; exact ⟨by simp, h⟩
  | c :: s, a, n, h => by
    rw [List.foldl_cons] at h
    cases hv : hexVal c with
    | none => simp only [hv] at h; exact absurd (h.symm.trans (readFold_none 10 s)) (by simp)
    | some d =>
      by_cases hd : d < 10
      · obtain ⟨h1, rfl⟩ := hexVal_dec c d hv hd
        have h2 : (do let a ← (some a : Option Nat); let d ← hexVal c; if d < 10 then some (10 * a + d) else none) = some (10 * a + (c.toNat - 48)) := by
          simp [hv, hd]
        rw [h2] at h
        obtain ⟨h3, h4⟩ := readFold_dec s _ n h
        refine ⟨by simpa [h1] using h3, ?_⟩
        rw [dec_cons, ← h4, Nat.mul_comm]
      · have h2 : (do let a ← (some a : Option Nat); let d ← hexVal c; if d < 10 then some (10 * a + d) else none) = (none : Option Nat) := by
          simp [hv, hd]
        rw [h2] at h
        exact absurd (h.symm.trans (readFold_none 10 s)) (by simp)

theorem readNat_dec {s : Bytes} {n : Nat} (h : readNat 10 s = some n) : s ≠ [] ∧ (∀ c ∈ s, isNum c = true) ∧ dec 0 s = n := by
  unfold readNat at h
  split at h
  · cases h
  · rename_i hs; exact ⟨hs, readFold_dec s 0 n h⟩

theorem num_eq {s : Bytes} {n : Nat} (h : readNat 10 s = some n) : num s = n := by unfold num; rw [h]; rfl

/-! ## The status line -/

theorem steps_major (hL : Laws cb F V B Rel) : ∀ (t : Bytes) (q : HParser) (hs : HState) (i n : Nat) (s : σ), (∀ c ∈ t, isNum c = true) →
    dec q.major t ≤ 999 → n + t.length ≤ maxHeaderSize →
    Steps cb Rel (at_ q .major hs i n) s t (at_ { q with major := dec q.major t } .major hs i (n + t.length)) s
  | [], q, hs, i, n, s, _, _, _ => Steps.nil hL _ _
  | c :: t, q, hs, i, n, s, hd, hb, hn => by
    simp only [List.length_cons] at hn
    have h1 : Steps cb Rel (at_ q .major hs i n) s [c] (at_ { q with major := q.major * 10 + (c.toNat - 48) } .major hs i (n + 1)) s := by
      refine step_plain hL (by simp [at_]) (Or.inl (by simp only [at_]; omega)) ?_
      have hc := hd c (by simp)
      have hle : q.major * 10 + (c.toNat - 48) ≤ 999 := Nat.le_trans (dec_mono t _) hb
      have h46 : c ≠ 46 := by rintro rfl; simp [isNum] at hc
      show (if c = 46 then _ else if !isNum c then _ else if q.major * 10 + (c.toNat - 48) > 999 then _ else _) = _
      rw [if_neg h46, hc, if_neg (by simp), if_neg (by omega)]
      rfl
    have h2 := steps_major hL t { q with major := q.major * 10 + (c.toNat - 48) } hs i (n + 1) s (fun x hx => hd x (by simp [hx])) hb (by omega)
    have := h1.trans hL h2
    rw [show n + 1 + t.length = n + (c :: t).length by simp; omega] at this
    exact this

theorem steps_minor (hL : Laws cb F V B Rel) : ∀ (t : Bytes) (q : HParser) (hs : HState) (i n : Nat) (s : σ), (∀ c ∈ t, isNum c = true) →
    dec q.minor t ≤ 999 → n + t.length ≤ maxHeaderSize →
    Steps cb Rel (at_ q .minor hs i n) s t (at_ { q with minor := dec q.minor t } .minor hs i (n + t.length)) s
  | [], q, hs, i, n, s, _, _, _ => Steps.nil hL _ _
  | c :: t, q, hs, i, n, s, hd, hb, hn => by
    simp only [List.length_cons] at hn
    have h1 : Steps cb Rel (at_ q .minor hs i n) s [c] (at_ { q with minor := q.minor * 10 + (c.toNat - 48) } .minor hs i (n + 1)) s := by
      refine step_plain hL (by simp [at_]) (Or.inl (by simp only [at_]; omega)) ?_
      have hc := hd c (by simp)
      have hle : q.minor * 10 + (c.toNat - 48) ≤ 999 := Nat.le_trans (dec_mono t _) hb
      have h46 : c ≠ 32 := by rintro rfl; simp [isNum] at hc
      show (if c = 32 then _ else if !isNum c then _ else if q.minor * 10 + (c.toNat - 48) > 999 then _ else _) = _
      rw [if_neg h46, hc, if_neg (by simp), if_neg (by omega)]
      rfl
    have h2 := steps_minor hL t { q with minor := q.minor * 10 + (c.toNat - 48) } hs i (n + 1) s (fun x hx => hd x (by simp [hx])) hb (by omega)
    have := h1.trans hL h2
    rw [show n + 1 + t.length = n + (c :: t).length by simp; omega] at this
    exact this

theorem steps_status (hL : Laws cb F V B Rel) : ∀ (t : Bytes) (q : HParser) (hs : HState) (i n : Nat) (s : σ), (∀ c ∈ t, isNum c = true) →
    dec q.status t ≤ 999 → n + t.length ≤ maxHeaderSize →
    Steps cb Rel (at_ q .status hs i n) s t (at_ { q with status := dec q.status t } .status hs i (n + t.length)) s
  | [], q, hs, i, n, s, _, _, _ => Steps.nil hL _ _
  | c :: t, q, hs, i, n, s, hd, hb, hn => by
    simp only [List.length_cons] at hn
    have h1 : Steps cb Rel (at_ q .status hs i n) s [c] (at_ { q with status := q.status * 10 + (c.toNat - 48) } .status hs i (n + 1)) s := by
      refine step_plain hL (by simp [at_]) (Or.inl (by simp only [at_]; omega)) ?_
      have hc := hd c (by simp)
      have hle : q.status * 10 + (c.toNat - 48) ≤ 999 := Nat.le_trans (dec_mono t _) hb
      show (if !isNum c then _ else if q.status * 10 + (c.toNat - 48) > 999 then _ else _) = _
      rw [hc, if_neg (by simp), if_neg (by omega)]
      rfl
    have h2 := steps_status hL t { q with status := q.status * 10 + (c.toNat - 48) } hs i (n + 1) s (fun x hx => hd x (by simp [hx])) hb (by omega)
    have := h1.trans hL h2
    rw [show n + 1 + t.length = n + (c :: t).length by simp; omega] at this
    exact this

theorem steps_text (hL : Laws cb F V B Rel) : ∀ (t : Bytes) (q : HParser) (hs : HState) (i n : Nat) (s : σ), (∀ c ∈ t, TextChar c) →
    n + t.length ≤ maxHeaderSize →
    Steps cb Rel (at_ q .statusText hs i n) s t (at_ q .statusText hs i (n + t.length)) s
  | [], q, hs, i, n, s, _, _ => Steps.nil hL _ _
  | c :: t, q, hs, i, n, s, hd, hn => by
    simp only [List.length_cons] at hn
    have h1 : Steps cb Rel (at_ q .statusText hs i n) s [c] (at_ q .statusText hs i (n + 1)) s := by
      refine step_plain hL (by simp [at_]) (Or.inl (by simp only [at_]; omega)) ?_
      have hc := hd c (by simp)
      show (if c = 13 then _ else if c = 10 then _ else _) = _
      rw [if_neg hc.1, if_neg hc.2]
      rfl
    have h2 := steps_text hL t q hs i (n + 1) s (fun x hx => hd x (by simp [hx])) (by omega)
    have := h1.trans hL h2
    rw [show n + 1 + t.length = n + (c :: t).length by simp; omega] at this
    exact this

/-- A number of up to three digits: its first digit, then the rest. -/
theorem small_cons {t : Bytes} (h : Small t) : ∃ c t', t = c :: t' ∧ isNum c = true ∧ (∀ x ∈ t', isNum x = true) ∧ dec (c.toNat - 48) t' ≤ 999 ∧
    num t = dec (c.toNat - 48) t' := by
  obtain ⟨n, hn, hb⟩ := h
  obtain ⟨h1, h2, h3⟩ := readNat_dec hn
  obtain ⟨c, t', rfl⟩ := List.exists_cons_of_ne_nil h1
  rw [dec_cons, Nat.zero_mul, Nat.zero_add] at h3
  exact ⟨c, t', rfl, h2 c (by simp), fun x hx => h2 x (by simp [hx]), by omega, by rw [num_eq hn, h3]⟩

/-- The parser that has begun a message. -/
def begun (q : HParser) : HParser :=
  { q with fChunked := false, fKeepAlive := false, fClose := false, fTrailing := false, fUpgrade := false, fSkipBody := false, contentLength := ullMax }

/-- The status line. -/
theorem steps_line (hL : Laws cb F V B Rel) {MB : σ → σ} (hM : ∀ p s, cb .messageBegin p s = (p, MB s)) (h : RHead) (q : HParser) (he : q.errno = .ok) (hs : HState)
    (i n : Nat) (s : σ) (h1 : Small h.major) (h2 : Small h.minor) (h3 : Small h.status)
    (h4 : h.reason = [] ∨ ∃ t, h.reason = 32 :: t ∧ ∀ b ∈ t, TextChar b)
    (hn : n + (b!"HTTP/" ++ h.major ++ b!"." ++ h.minor ++ b!" " ++ h.status ++ h.reason ++ b!"\r\n").length ≤ maxHeaderSize) :
    Steps cb Rel (at_ q .startRes hs i n) s (b!"HTTP/" ++ h.major ++ b!"." ++ h.minor ++ b!" " ++ h.status ++ h.reason ++ b!"\r\n")
      (at_ { begun q with major := num h.major, minor := num h.minor, status := num h.status } .fieldStart hs i
        (n + (b!"HTTP/" ++ h.major ++ b!"." ++ h.minor ++ b!" " ++ h.status ++ h.reason ++ b!"\r\n").length)) (MB s) := by
  obtain ⟨c1, t1, e1, d1, a1, b1, v1⟩ := small_cons h1
  obtain ⟨c2, t2, e2, d2, a2, b2, v2⟩ := small_cons h2
  obtain ⟨c3, t3, e3, d3, a3, b3, v3⟩ := small_cons h3
  rw [e1, e2, e3, List.length_append, List.length_append, List.length_append, List.length_append, List.length_append, List.length_append,
    List.length_append] at hn
  simp only [List.length_cons, List.length_nil] at hn
  have k0 : Steps cb Rel (at_ q .startRes hs i n) s b!"H" (at_ (begun q) .resH hs i (n + 1)) (MB s) := by
    refine step_plain hL (by simp [at_]) (Or.inl (by simp only [at_]; omega)) ?_
    show notify cb .messageBegin (at_ (begun q) .resH hs i (n + 1)) s {} = _
    unfold notify
    rw [hM, show (at_ (begun q) PState.resH hs i (n + 1)).errno = Errno.ok from he]
    dsimp only
    rw [if_neg]
    · rfl
    · exact fun h => h he
  have k1 : Steps cb Rel (at_ (begun q) .resH hs i (n + 1)) (MB s) b!"T" (at_ (begun q) .resHT hs i (n + 2)) (MB s) :=
    step_plain hL (by simp [at_]) (Or.inl (by simp only [at_]; omega)) rfl
  have k2 : Steps cb Rel (at_ (begun q) .resHT hs i (n + 2)) (MB s) b!"T" (at_ (begun q) .resHTT hs i (n + 3)) (MB s) :=
    step_plain hL (by simp [at_]) (Or.inl (by simp only [at_]; omega)) rfl
  have k3 : Steps cb Rel (at_ (begun q) .resHTT hs i (n + 3)) (MB s) b!"P" (at_ (begun q) .resHTTP hs i (n + 4)) (MB s) :=
    step_plain hL (by simp [at_]) (Or.inl (by simp only [at_]; omega)) rfl
  have k4 : Steps cb Rel (at_ (begun q) .resHTTP hs i (n + 4)) (MB s) b!"/" (at_ (begun q) .firstMajor hs i (n + 5)) (MB s) :=
    step_plain hL (by simp [at_]) (Or.inl (by simp only [at_]; omega)) rfl
  have k5 : Steps cb Rel (at_ (begun q) .firstMajor hs i (n + 5)) (MB s) [c1] (at_ { begun q with major := c1.toNat - 48 } .major hs i (n + 6)) (MB s) := by
    refine step_plain hL (by simp [at_]) (Or.inl (by simp only [at_]; omega)) ?_
    show (if !isNum c1 then _ else _) = _
    rw [d1, if_neg (by simp)]
    rfl
  have k6 := steps_major hL t1 { begun q with major := c1.toNat - 48 } hs i (n + 6) (MB s) a1 b1 (by omega)
  dsimp only at k6
  rw [← v1] at k6
  generalize hq1 : ({ begun q with major := num h.major } : HParser) = q1 at k6
  generalize hn1 : n + 6 + t1.length = n1 at k6
  have k7 : Steps cb Rel (at_ q1 .major hs i n1) (MB s) b!"." (at_ q1 .firstMinor hs i (n1 + 1)) (MB s) :=
    step_plain hL (by simp [at_]) (Or.inl (by simp only [at_]; omega)) rfl
  have k8 : Steps cb Rel (at_ q1 .firstMinor hs i (n1 + 1)) (MB s) [c2] (at_ { q1 with minor := c2.toNat - 48 } .minor hs i (n1 + 2)) (MB s) := by
    refine step_plain hL (by simp [at_]) (Or.inl (by simp only [at_]; omega)) ?_
    show (if !isNum c2 then _ else _) = _
    rw [d2, if_neg (by simp)]
    rfl
  have k9 := steps_minor hL t2 { q1 with minor := c2.toNat - 48 } hs i (n1 + 2) (MB s) a2 b2 (by omega)
  dsimp only at k9
  rw [← v2] at k9
  generalize hq2 : ({ q1 with minor := num h.minor } : HParser) = q2 at k9
  generalize hn2 : n1 + 2 + t2.length = n2 at k9
  have k10 : Steps cb Rel (at_ q2 .minor hs i n2) (MB s) b!" " (at_ q2 .firstStatus hs i (n2 + 1)) (MB s) :=
    step_plain hL (by simp [at_]) (Or.inl (by simp only [at_]; omega)) rfl
  have k11 : Steps cb Rel (at_ q2 .firstStatus hs i (n2 + 1)) (MB s) [c3] (at_ { q2 with status := c3.toNat - 48 } .status hs i (n2 + 2)) (MB s) := by
    refine step_plain hL (by simp [at_]) (Or.inl (by simp only [at_]; omega)) ?_
    show (if !isNum c3 then _ else _) = _
    rw [d3, if_neg (by simp)]
    rfl
  have k12 := steps_status hL t3 { q2 with status := c3.toNat - 48 } hs i (n2 + 2) (MB s) a3 b3 (by omega)
  dsimp only at k12
  rw [← v3] at k12
  generalize hq3 : ({ q2 with status := num h.status } : HParser) = q3 at k12
  generalize hn3 : n2 + 2 + t3.length = n3 at k12
  have k13 : Steps cb Rel (at_ q3 .status hs i n3) (MB s) (h.reason ++ b!"\r\n") (at_ q3 .fieldStart hs i (n3 + h.reason.length + 2)) (MB s) := by
    have last : ∀ (n : Nat), n + 1 ≤ maxHeaderSize → Steps cb Rel (at_ q3 .lineAlmostDone hs i n) (MB s) b!"\n" (at_ q3 .fieldStart hs i (n + 1)) (MB s) :=
      fun n hn => step_plain hL (by simp [at_]) (Or.inl hn) rfl
    rcases h4 with h4 | ⟨t, h4, ht⟩
    · rw [h4] at hn ⊢
      simp only [List.length_nil] at hn
      have c : Steps cb Rel (at_ q3 .status hs i n3) (MB s) b!"\r" (at_ q3 .lineAlmostDone hs i (n3 + 1)) (MB s) :=
        step_plain hL (by simp [at_]) (Or.inl (by simp only [at_]; omega)) rfl
      exact c.trans hL (last _ (by omega))
    · rw [h4] at hn ⊢
      simp only [List.length_cons] at hn
      have c : Steps cb Rel (at_ q3 .status hs i n3) (MB s) b!" " (at_ q3 .statusText hs i (n3 + 1)) (MB s) :=
        step_plain hL (by simp [at_]) (Or.inl (by simp only [at_]; omega)) rfl
      have d := steps_text hL t q3 hs i (n3 + 1) (MB s) ht (by omega)
      have e : Steps cb Rel (at_ q3 .statusText hs i (n3 + 1 + t.length)) (MB s) b!"\r" (at_ q3 .lineAlmostDone hs i (n3 + 1 + t.length + 1)) (MB s) :=
        step_plain hL (by simp [at_]) (Or.inl (by simp only [at_]; omega)) rfl
      have := ((c.trans hL d).trans hL e).trans hL (last _ (by omega))
      simpa [Nat.add_assoc, Nat.add_comm 1] using this
  have := ((((((((((((k0.trans hL k1).trans hL k2).trans hL k3).trans hL k4).trans hL k5).trans hL k6).trans hL k7).trans hL k8).trans hL k9).trans hL k10).trans hL
    k11).trans hL k12).trans hL k13
  have eb : b!"H" ++ b!"T" ++ b!"T" ++ b!"P" ++ b!"/" ++ [c1] ++ t1 ++ b!"." ++ [c2] ++ t2 ++ b!" " ++ [c3] ++ t3 ++ (h.reason ++ b!"\r\n") =
      b!"HTTP/" ++ h.major ++ b!"." ++ h.minor ++ b!" " ++ h.status ++ h.reason ++ b!"\r\n" := by
    rw [e1, e2, e3]; simp
  rw [eb] at this
  have en : n3 + h.reason.length + 2 = n + (b!"HTTP/" ++ h.major ++ b!"." ++ h.minor ++ b!" " ++ h.status ++ h.reason ++ b!"\r\n").length := by
    rw [← hn3, ← hn2, ← hn1, e1, e2, e3]
    simp only [List.length_append, List.length_cons, List.length_nil]
    omega
  rw [en] at this
  have eq : q3 = { begun q with major := num h.major, minor := num h.minor, status := num h.status } := by rw [← hq3, ← hq2, ← hq1]
  rw [eq] at this
  exact this

end
end Pillow
