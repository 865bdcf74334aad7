import Verif.Model.RequestMemory
import Verif.Lemmas.ThinSeg
import Verif.Lemmas.Depth
set_option linter.unusedSimpArgs false
set_option linter.unusedVariables false
/-!
# Positions the head parser keeps
-/
namespace Pillow.Memory
open Pillow

/-- The slice ends before position `n`, with at least one byte behind it, or is not set. -/
def Before (n : Nat) (s : Slice) : Prop := s = ⟨0, 0⟩ ∨ s.start + s.len < n

theorem Before.le {n : Nat} {s : Slice} (h : Before n s) : s.start + s.len ≤ n := by
  rcases h with rfl | h
  · exact Nat.zero_le _
  · exact Nat.le_of_lt h

theorem Before.mono {n m : Nat} {s : Slice} (h : Before n s) (hm : n ≤ m) : Before m s := by
  rcases h with h | h
  · exact .inl h
  · exact .inr (by omega)

/-- What the parser remembers lies before position `n`. -/
structure Bound (s : Parser) (n : Nat) : Prop where
  mark : s.mark = 0 ∨ s.mark < n
  fieldStart : s.fieldStart = 0 ∨ s.fieldStart < n
  fieldLen : s.fieldLen ≤ n
  query : 35 ≤ s.cs ∧ s.cs ≤ 38 → s.queryStart < n
  field : s.cs = 18 ∨ s.cs = 19 → s.fieldStart + s.fieldLen < n
  m : Before n s.method
  u : Before n s.uri
  f : Before n s.fragment
  p : Before n s.path
  q : Before n s.query
  v : Before n s.version
  fields : ∀ r ∈ s.fields, Before n r.name ∧ Before n r.value
  body : s.bodyStart ≤ n

theorem Bound.start (s0 : Parser) : Bound s0.init 0 := by
  constructor <;> simp [Parser.init, Before]

theorem Bound.zero : Bound {} 0 := by constructor <;> simp [Before]

theorem Bound.congr_nread {s : Parser} {n k : Nat} (h : Bound s n) : Bound { s with nread := k } n := by
  constructor <;> first | exact h.mark | exact h.fieldStart | exact h.fieldLen | exact h.query | exact h.field | exact h.m | exact h.u | exact h.f | exact h.p | exact h.q | exact h.v | exact h.fields | exact h.body

theorem Bound.cs {s : Parser} {n : Nat} (h : Bound s n) (k : Nat) (hk : k ≤ 2) : Bound { s with cs := k } n :=
  ⟨h.mark, h.fieldStart, h.fieldLen, fun e => absurd e.1 (by show ¬ 35 ≤ k; omega), fun e => absurd e (by show ¬ (k = 18 ∨ k = 19); omega), h.m, h.u, h.f, h.p, h.q, h.v, h.fields, h.body⟩

/-- The lists of actions there are, and where. -/
def Shape (cs : Nat) (acts : List Act) (k : Nat) : Bool :=
  decide (acts ∈ [[], [.mark], [.method], [.uri], [.version], [.fieldStart], [.fieldLen], [.mark, .writeValue], [.writeValue], [.mark, .fragment], [.fragment], [.path, .uri], [.path],
    [.queryStart, .query, .uri], [.queryStart], [.query, .uri], [.done]]) &&
  (!(35 ≤ k && k ≤ 38) || acts == [.queryStart] || (acts == [] && 35 ≤ cs && cs ≤ 38)) &&
  (!(k == 18 || k == 19) || acts == [.fieldLen] || ((acts == [] || acts == [.mark]) && (cs == 18 || cs == 19))) &&
  (!(acts == [.query, .uri]) || (35 ≤ cs && cs ≤ 38)) &&
  (!(acts == [.writeValue] || acts == [.mark, .writeValue]) || cs == 18 || cs == 19)

theorem tr_shape_small : ∀ cs : Fin 59, ∀ b : Fin 256, (match tr cs.val (UInt8.ofFin b) with | none => true | some (acts, k) => Shape cs.val acts k) = true := by
  decide +kernel

theorem tr_shape {cs : Nat} {b : Byte} {acts : List Act} {k : Nat} (h : tr cs b = some (acts, k)) : Shape cs acts k = true := by
  by_cases hc : cs < 59
  · have := tr_shape_small ⟨cs, hc⟩ b.toFin
    rw [show UInt8.ofFin b.toFin = b from rfl] at this
    simpa [h] using this
  · exfalso
    unfold tr at h
    split at h <;> (try omega)
    rw [if_neg (by omega)] at h
    cases h

theorem Before.of_mark {n a : Nat} (h : a ≤ n) : Before (n + 1) ⟨a, n - a⟩ := .inr (by show a + (n - a) < n + 1; omega)

theorem Bound.next {s : Parser} {n : Nat} (h : Bound s n) {b : Byte} {acts : List Act} {k : Nat} (ht : tr s.cs b = some (acts, k)) :
    Bound (s.next n acts k) (n + 1) := by
  have hs := tr_shape ht
  clear ht
  obtain ⟨h1, h2, h3, h4, h5, h6, h7, h8, h9, h10, h11, h12, h13⟩ := h
  have hn : n ≤ n + 1 := by omega
  have g1 : s.mark = 0 ∨ s.mark < n + 1 := by omega
  have m1 : s.mark ≤ n := by omega
  have g2 : s.fieldStart = 0 ∨ s.fieldStart < n + 1 := by omega
  have m2 : s.fieldStart ≤ n := by omega
  have g3 : s.fieldLen ≤ n + 1 := by omega
  have g6 := h6.mono hn
  have g7 := h7.mono hn
  have g8 := h8.mono hn
  have g9 := h9.mono hn
  have g10 := h10.mono hn
  have g11 := h11.mono hn
  have g12 : ∀ r ∈ s.fields, Before (n + 1) r.name ∧ Before (n + 1) r.value := fun r hr => ⟨(h12 r hr).1.mono hn, (h12 r hr).2.mono hn⟩
  have g13 : s.bodyStart ≤ n + 1 := by omega
  clear h1 h2 h3 h6 h7 h8 h9 h10 h11 h12 h13
  generalize s.cs = cs at hs h4 h5
  unfold Shape at hs
  simp only [Bool.and_eq_true, decide_eq_true_eq, List.mem_cons, List.not_mem_nil, or_false] at hs
  obtain ⟨⟨⟨⟨hl, hq⟩, hf⟩, hq'⟩, hw⟩ := hs
  have fieldCase : (cs = 18 ∨ cs = 19) → ∀ a, a ≤ n → ∀ r ∈ s.fields ++ [⟨⟨s.fieldStart, s.fieldLen⟩, ⟨a, n - a⟩⟩], Before (n + 1) r.name ∧ Before (n + 1) r.value := by
    intro hc a ha r hr
    simp only [List.mem_append, List.mem_singleton] at hr
    rcases hr with hr | rfl
    · exact g12 r hr
    · exact ⟨.inr (by have := h5 hc; show s.fieldStart + s.fieldLen < n + 1; omega), Before.of_mark ha⟩
  rcases hl with rfl | rfl | rfl | rfl | rfl | rfl | rfl | rfl | rfl | rfl | rfl | rfl | rfl | rfl | rfl | rfl | rfl <;>
    simp at hq hf hq' hw <;>
    constructor <;> simp only [Parser.next, Parser.act, List.foldl_cons, List.foldl_nil] <;>
    first
      | assumption
      | exact .inr (Nat.lt_succ_self n)
      | exact Before.of_mark m1
      | exact Before.of_mark (Nat.le_refl n)
      | exact fieldCase (by omega) _ m1
      | exact fieldCase (by omega) _ (Nat.le_refl n)
      | exact Nat.le_refl _
      | exact Before.of_mark (Nat.le_of_lt (h4 (by omega)))
      | (clear fieldCase g12; omega)
      | skip

theorem Bound.mono {s : Parser} {n m : Nat} (h : Bound s n) (hm : n ≤ m) : Bound s m :=
  ⟨by have := h.mark; omega, by have := h.fieldStart; omega, by have := h.fieldLen; omega, fun e => by have := h.query e; omega, fun e => by have := h.field e; omega,
    h.m.mono hm, h.u.mono hm, h.f.mono hm, h.p.mono hm, h.q.mono hm, h.v.mono hm, fun r hr => ⟨(h.fields r hr).1.mono hm, (h.fields r hr).2.mono hm⟩, by have := h.body; omega⟩

theorem done_body {s : Parser} {n : Nat} {b : Byte} {acts : List Act} {k : Nat} (ht : tr s.cs b = some (acts, k)) (hd : .done ∈ acts) : (s.next n acts k).bodyStart = n + 1 := by
  have := (tr_done _ _ _ _ ht).2.1 hd
  obtain ⟨-, -, rfl⟩ := this
  rfl

theorem run_finished {bs : Bytes} : ∀ {s : Parser} {n : Nat}, s.bodyStart = 0 → s.cs ≠ 58 → ((s.run n bs).1.cs = 58 ↔ (s.run n bs).1.bodyStart ≠ 0) := by
  induction bs with
  | nil => intro s n hb hc; exact ⟨fun e => absurd e hc, fun e => absurd hb e⟩
  | cons b bs ih =>
    intro s n hb hc
    cases ht : tr s.cs b with
    | none =>
      simp only [Parser.run, ht]
      exact ⟨fun e => (by cases e), fun e => absurd hb e⟩
    | some x =>
      obtain ⟨acts, k⟩ := x
      rw [run_cons ht]
      have hd := tr_done _ _ _ _ ht
      have hk : (s.next n acts k).cs = k := by simp [Parser.next]
      by_cases he : Act.done ∈ acts
      · rw [if_pos he]
        refine ⟨fun _ => by rw [done_body ht he]; omega, fun _ => hk.trans (hd.1.1 he)⟩
      · rw [if_neg he]
        exact ih ((act_bodyStart n acts s he).1.trans hb) (by rw [hk]; exact fun e => he (hd.1.2 e))

theorem execute_finished {s : Parser} {buf : Bytes} {off : Nat} (hb : s.bodyStart = 0) (hc : s.cs ≠ 58) :
    (s.execute buf off).cs = 58 ↔ (s.execute buf off).bodyStart ≠ 0 := by
  have hx : ∀ x : Parser × Nat, x = (if buf.drop off = [] then (s, off) else if hasCase s.cs then s.run off (buf.drop off) else ({ s with cs := 2 }, off)) →
      (x.1.cs = 58 ↔ x.1.bodyStart ≠ 0) := by
    intro x hx
    by_cases hr : buf.drop off = []
    · rw [if_pos hr] at hx; subst hx; exact ⟨fun e => absurd e hc, fun e => absurd hb e⟩
    · rw [if_neg hr] at hx
      by_cases hc' : hasCase s.cs = true
      · rw [if_pos hc'] at hx; subst hx; exact run_finished hb hc
      · rw [if_neg hc'] at hx; subst hx; exact ⟨fun e => (by cases e), fun e => absurd hb e⟩
  have key : ∀ x : Parser × Nat, (x.1.cs = 58 ↔ x.1.bodyStart ≠ 0) →
      ((if ({ x.1 with nread := x.1.nread + (x.2 - off) } : Parser).bodyStart ≠ 0 then { ({ x.1 with nread := x.1.nread + (x.2 - off) } : Parser) with nread := ({ x.1 with nread := x.1.nread + (x.2 - off) } : Parser).nread + 1 } else { x.1 with nread := x.1.nread + (x.2 - off) }).cs = 58 ↔
       (if ({ x.1 with nread := x.1.nread + (x.2 - off) } : Parser).bodyStart ≠ 0 then { ({ x.1 with nread := x.1.nread + (x.2 - off) } : Parser) with nread := ({ x.1 with nread := x.1.nread + (x.2 - off) } : Parser).nread + 1 } else { x.1 with nread := x.1.nread + (x.2 - off) }).bodyStart ≠ 0) := by
    intro x h
    split <;> exact h
  exact key _ (hx _ rfl)

theorem Bound.run {bs : Bytes} : ∀ {s : Parser} {n : Nat}, Bound s n → s.bodyStart = 0 →
    Bound (s.run n bs).1 (s.run n bs).2 ∧ ((s.run n bs).1.bodyStart ≠ 0 → (s.run n bs).1.bodyStart = (s.run n bs).2) ∧ (s.run n bs).1.nread = s.nread ∧
    n ≤ (s.run n bs).2 ∧ (s.run n bs).2 ≤ n + bs.length := by
  induction bs with
  | nil => intro s n h hb; exact ⟨h, fun e => absurd hb e, rfl, Nat.le_refl _, Nat.le_refl _⟩
  | cons b bs ih =>
    intro s n h hb
    cases ht : tr s.cs b with
    | none =>
      simp only [Parser.run, ht]
      exact ⟨h.cs 0 (by omega), fun e => absurd hb e, by simp⟩
    | some x =>
      obtain ⟨acts, k⟩ := x
      rw [run_cons ht]
      by_cases hd : Act.done ∈ acts
      · rw [if_pos hd]
        have := (tr_done _ _ _ _ ht).2.1 hd
        refine ⟨h.next ht, fun _ => done_body ht hd, ?_, by simp, by simp⟩
        obtain ⟨-, -, rfl⟩ := this
        rfl
      · rw [if_neg hd]
        have ha := act_bodyStart n acts s hd
        have := ih (h.next ht) (show (s.next n acts k).bodyStart = 0 by exact ha.1.trans hb)
        obtain ⟨i1, i2, i3, i4, i5⟩ := this
        refine ⟨i1, i2, i3.trans ha.2, by omega, ?_⟩
        simp only [List.length_cons]; omega

/-- What one call of the parser does: `p` is where it stops. -/
theorem Bound.execute {s : Parser} {buf : Bytes} (h : Bound s s.nread) (hb : s.bodyStart = 0) (ho : s.nread ≤ buf.length) :
    ∃ p, s.nread ≤ p ∧ p ≤ buf.length ∧ Bound (s.execute buf s.nread) p ∧
      ((s.execute buf s.nread).bodyStart = 0 ∧ (s.execute buf s.nread).nread = p ∨ (s.execute buf s.nread).bodyStart = p ∧ 0 < p ∧ (s.execute buf s.nread).nread = p + 1) := by
  have key : ∀ x : Parser × Nat, (Bound x.1 x.2 ∧ (x.1.bodyStart ≠ 0 → x.1.bodyStart = x.2) ∧ x.1.nread = s.nread ∧ s.nread ≤ x.2 ∧ x.2 ≤ buf.length) →
      ∃ p, s.nread ≤ p ∧ p ≤ buf.length ∧
        Bound (if ({ x.1 with nread := x.1.nread + (x.2 - s.nread) } : Parser).bodyStart ≠ 0 then { ({ x.1 with nread := x.1.nread + (x.2 - s.nread) } : Parser) with nread := ({ x.1 with nread := x.1.nread + (x.2 - s.nread) } : Parser).nread + 1 } else { x.1 with nread := x.1.nread + (x.2 - s.nread) }) p ∧
        ((if ({ x.1 with nread := x.1.nread + (x.2 - s.nread) } : Parser).bodyStart ≠ 0 then { ({ x.1 with nread := x.1.nread + (x.2 - s.nread) } : Parser) with nread := ({ x.1 with nread := x.1.nread + (x.2 - s.nread) } : Parser).nread + 1 } else { x.1 with nread := x.1.nread + (x.2 - s.nread) }).bodyStart = 0 ∧
          (if ({ x.1 with nread := x.1.nread + (x.2 - s.nread) } : Parser).bodyStart ≠ 0 then { ({ x.1 with nread := x.1.nread + (x.2 - s.nread) } : Parser) with nread := ({ x.1 with nread := x.1.nread + (x.2 - s.nread) } : Parser).nread + 1 } else { x.1 with nread := x.1.nread + (x.2 - s.nread) }).nread = p ∨
         (if ({ x.1 with nread := x.1.nread + (x.2 - s.nread) } : Parser).bodyStart ≠ 0 then { ({ x.1 with nread := x.1.nread + (x.2 - s.nread) } : Parser) with nread := ({ x.1 with nread := x.1.nread + (x.2 - s.nread) } : Parser).nread + 1 } else { x.1 with nread := x.1.nread + (x.2 - s.nread) }).bodyStart = p ∧ 0 < p ∧
          (if ({ x.1 with nread := x.1.nread + (x.2 - s.nread) } : Parser).bodyStart ≠ 0 then { ({ x.1 with nread := x.1.nread + (x.2 - s.nread) } : Parser) with nread := ({ x.1 with nread := x.1.nread + (x.2 - s.nread) } : Parser).nread + 1 } else { x.1 with nread := x.1.nread + (x.2 - s.nread) }).nread = p + 1) := by
    rintro ⟨q, p⟩ ⟨i1, i2, i3, i4, i5⟩
    simp only at i1 i2 i3 i4 i5
    refine ⟨p, i4, i5, ?_⟩
    by_cases hbs : q.bodyStart = 0
    · rw [if_neg (by show ¬ q.bodyStart ≠ 0; omega)]
      exact ⟨i1.congr_nread, .inl ⟨hbs, by show q.nread + (p - s.nread) = p; omega⟩⟩
    · rw [if_pos (by exact hbs)]
      have := i2 hbs
      exact ⟨(i1.congr_nread).congr_nread, .inr ⟨this, by omega, by show q.nread + (p - s.nread) + 1 = p + 1; omega⟩⟩
  have hx : ∀ x : Parser × Nat, x = (if buf.drop s.nread = [] then (s, s.nread) else if hasCase s.cs then s.run s.nread (buf.drop s.nread) else ({ s with cs := 2 }, s.nread)) →
      (Bound x.1 x.2 ∧ (x.1.bodyStart ≠ 0 → x.1.bodyStart = x.2) ∧ x.1.nread = s.nread ∧ s.nread ≤ x.2 ∧ x.2 ≤ buf.length) := by
    intro x hx
    by_cases hr : buf.drop s.nread = []
    · rw [if_pos hr] at hx; subst hx; exact ⟨h, fun e => absurd hb e, rfl, Nat.le_refl _, ho⟩
    · rw [if_neg hr] at hx
      by_cases hc : hasCase s.cs = true
      · rw [if_pos hc] at hx; subst hx
        obtain ⟨i1, i2, i3, i4, i5⟩ := Bound.run (bs := buf.drop s.nread) h hb
        exact ⟨i1, i2, i3, i4, by rw [List.length_drop] at i5; omega⟩
      · rw [if_neg hc] at hx; subst hx
        exact ⟨h.cs 2 (by omega), fun e => absurd hb e, rfl, Nat.le_refl _, ho⟩
  exact key _ (hx _ rfl)

/-! ### The invariant -/

/-- Code that runs right after the code that decided to run it. -/
def Special : Instr → Bool
  | .recvContent | .sendHeaders | .errorResponse _ | .flushing => true
  | _ => false

/-- Between instructions. -/
structure Plain (c : Conn) : Prop where
  headers : c.st = .receivingHeaders → c.clen = 0 ∧ c.parser.bodyStart = 0 ∧ c.parser.cs ≠ 58 ∧ Bound c.parser c.parser.nread ∧ c.parser.nread ≤ c.buf.length
  content : c.st = .receivingContent → 0 ≤ c.clen ∧ Bound c.parser c.parser.bodyStart

def TopOk (c : Conn) : List Instr → Prop
  | .recvContent :: _ => c.st = .receivingHeaders ∧ c.clen = 0 ∧ Bound c.parser c.parser.bodyStart ∧ c.parser.bodyStart ≤ c.buf.length
  | .sendHeaders :: _ => Bound c.parser c.parser.bodyStart ∧ 0 ≤ c.clen ∧ c.parser.bodyStart + c.clen.toNat ≤ c.buf.length
  | .errorResponse _ :: _ => True
  | .flushing :: _ => True
  | _ => Plain c

structure MInv (c : Conn) (stack : List Instr) (cap : Nat) : Prop where
  refs : ∀ r ∈ c.refs, Before c.buf.length r.name ∧ Before c.buf.length r.value
  cap : c.buf.length ≤ cap
  tail : ∀ i ∈ stack.tail, Special i = false
  top : TopOk c stack

theorem TopOk.plain {c : Conn} {stack : List Instr} (h : Plain c) (hs : ∀ i ∈ stack, Special i = false) : TopOk c stack := by
  cases stack with
  | nil => exact h
  | cons i l =>
    have := hs i (by simp)
    cases i <;> simp [Special] at this <;> exact h

theorem TopOk.out {c : Conn} {stack : List Instr} (h : TopOk c stack) (hs : ∀ i l, stack = i :: l → Special i = false) : Plain c := by
  cases stack with
  | nil => exact h
  | cons i l =>
    have := hs i l rfl
    cases i <;> simp [Special] at this <;> exact h

/-- The connection differs from the other in nothing that matters here, or no longer receives. -/
def Calm (c c' : Conn) : Prop :=
  c'.buf = c.buf ∧ c'.refs = c.refs ∧ ((c'.st = c.st ∧ c'.parser = c.parser ∧ c'.clen = c.clen) ∨ (c'.st ≠ .receivingHeaders ∧ c'.st ≠ .receivingContent))

theorem Calm.plain {c c' : Conn} (hc : Calm c c') (h : Plain c) : Plain c' := by
  obtain ⟨h1, h2, h3⟩ := hc
  rcases h3 with ⟨h3, h4, h5⟩ | ⟨h3, h4⟩
  · exact ⟨by rw [h3, h4, h5, h1]; exact h.headers, by rw [h3, h4, h5]; exact h.content⟩
  · exact ⟨fun e => absurd e h3, fun e => absurd e h4⟩

theorem write_same (c : Conn) (e : Ev) : (c.write e).buf = c.buf ∧ (c.write e).refs = c.refs ∧ (c.write e).st = c.st ∧ (c.write e).parser = c.parser ∧ (c.write e).clen = c.clen := by
  unfold Conn.write; split <;> exact ⟨rfl, rfl, rfl, rfl, rfl⟩

theorem readView_same (c : Conn) : c.readView.buf = c.buf ∧ c.readView.refs = c.refs ∧ c.readView.st = c.st ∧ c.readView.parser = c.parser ∧ c.readView.clen = c.clen := by
  unfold Conn.readView; split <;> exact ⟨rfl, rfl, rfl, rfl, rfl⟩

theorem Calm.refl (c : Conn) : Calm c c := ⟨rfl, rfl, .inl ⟨rfl, rfl, rfl⟩⟩
theorem Calm.of_eq {c c' : Conn} (h : c'.buf = c.buf ∧ c'.refs = c.refs ∧ c'.st = c.st ∧ c'.parser = c.parser ∧ c'.clen = c.clen) : Calm c c' :=
  ⟨h.1, h.2.1, .inl h.2.2⟩

/-- Instructions with nothing to do with the buffer. -/
theorem exec_calm (k : Nat) (i : Instr) (hi : i ≠ .processInput ∧ i ≠ .recvContent ∧ i ≠ .sendHeaders ∧ i ≠ .completedRest ∧ i ≠ .completedRest2 ∧ i ≠ .flushing ∧ ∀ e, i ≠ .errorResponse e) (c : Conn) :
    Calm c (exec k i c).1 ∧ ∀ j ∈ (exec k i c).2, Special j = false := by
  cases i <;> simp only [exec] <;> simp only [ne_eq, not_true_eq_false, reduceCtorEq, not_false_eq_true, false_and, and_false, true_and, Instr.errorResponse.injEq, forall_eq'] at hi
  case env => exact ⟨Calm.refl c, by simp⟩
  case sendContent =>
    unfold Conn.sendContent
    split
    · exact ⟨Calm.refl c, by simp⟩
    · simp only []
      split
      · exact ⟨⟨rfl, rfl, .inr ⟨by simp, by simp⟩⟩, by simp [Special]⟩
      · have := readView_same { c with st := .sendingContent, respBuf := [] }
        have hc : Calm c (Conn.readView { c with st := .sendingContent, respBuf := [] }) := ⟨this.1, this.2.1, .inr (by rw [this.2.2.1]; simp)⟩
        split
        · exact ⟨hc, by simp [Special]⟩
        · exact ⟨hc, by simp [Special]⟩
  case sendContentRest => unfold Conn.sendContentRest; simp only []; split <;> exact ⟨Calm.of_eq ⟨rfl, rfl, rfl, rfl, rfl⟩, by simp⟩
  case completed =>
    unfold Conn.complete
    split
    · exact ⟨Calm.refl c, by simp⟩
    · exact ⟨⟨rfl, rfl, .inr (by simp [Conn.emit])⟩, by simp [Special]⟩
  case flush =>
    unfold Conn.flush
    split
    · exact ⟨Calm.refl c, by simp⟩
    · split
      · exact ⟨Calm.of_eq ⟨rfl, rfl, rfl, rfl, rfl⟩, by simp [Special]⟩
      · exact ⟨Calm.refl c, by simp⟩
  case drain => unfold Conn.drain; split <;> exact ⟨Calm.refl c, by simp [Special]⟩
  case drainRest =>
    unfold Conn.drainRest
    split
    · exact ⟨Calm.refl c, by simp⟩
    · split <;> exact ⟨Calm.refl c, by simp [Special]⟩
  case flushingRest =>
    unfold Conn.flushingRest
    split
    · split <;> exact ⟨Calm.of_eq ⟨rfl, rfl, rfl, rfl, rfl⟩, by simp⟩
    · exact ⟨Calm.refl c, by simp⟩
  case closed f =>
    unfold Conn.toClosed
    split
    · exact ⟨Calm.refl c, by simp⟩
    · exact ⟨⟨rfl, rfl, .inr (by simp [Conn.emit])⟩, by simp [Special]⟩
  case closedRest => exact ⟨Calm.of_eq ⟨rfl, rfl, rfl, rfl, rfl⟩, by simp [Conn.closedRest]⟩
  case writeResponse s hs ct =>
    unfold Conn.writeResponse
    split
    · exact ⟨Calm.refl c, by simp⟩
    · exact ⟨Calm.of_eq ⟨rfl, rfl, rfl, rfl, rfl⟩, by simp [Special]⟩
  case writeResponseRest ct =>
    unfold Conn.writeResponseRest
    split
    · exact ⟨Calm.refl c, by simp⟩
    · simp only []
      split <;> exact ⟨Calm.of_eq (readView_same c), by simp [Special]⟩
  case writeHeaders s hs =>
    unfold Conn.writeHeaders
    split
    · exact ⟨Calm.refl c, by simp⟩
    · simp only []
      have h0 := readView_same c
      split
      · exact ⟨Calm.of_eq h0, by simp⟩
      · rename_i h _
        refine ⟨Calm.of_eq ?_, by simp [Special]⟩
        have h1 := write_same { c.readView with status := s, respBuf := h.bytes, respLen := h.len, chunked := h.chunked, keepAlive := h.keepAlive } (.head h)
        exact ⟨h1.1.trans h0.1, h1.2.1.trans h0.2.1, h1.2.2.1.trans h0.2.2.1, h1.2.2.2.1.trans h0.2.2.2.1, h1.2.2.2.2.trans h0.2.2.2.2⟩
  case writeContent ct =>
    unfold Conn.writeContent
    split
    · exact ⟨Calm.refl c, by simp⟩
    · split
      · exact ⟨Calm.refl c, by simp⟩
      · split
        · exact ⟨Calm.refl c, by simp⟩
        · split
          · simp only []
            have h0 := readView_same c
            split
            · exact ⟨Calm.of_eq h0, by simp⟩
            · have h1 : ∀ e, Calm c (Conn.write { c.readView with sent := c.readView.sent + ct.length } e) := fun e => by
                have h1 := write_same { c.readView with sent := c.readView.sent + ct.length } e
                exact Calm.of_eq ⟨h1.1.trans h0.1, h1.2.1.trans h0.2.1, h1.2.2.1.trans h0.2.2.1, h1.2.2.2.1.trans h0.2.2.2.1, h1.2.2.2.2.trans h0.2.2.2.2⟩
              repeat' split
              all_goals exact ⟨h1 _, by simp [Special]⟩
          · exact ⟨Calm.refl c, by simp⟩
  case endContent =>
    unfold Conn.endContent
    split
    · exact ⟨Calm.refl c, by simp⟩
    · split
      · exact ⟨Calm.refl c, by simp⟩
      · simp only []
        split
        · exact ⟨Calm.of_eq (write_same c _), by simp [Special]⟩
        · exact ⟨Calm.of_eq ⟨rfl, rfl, rfl, rfl, rfl⟩, by simp [Special]⟩
  all_goals exact absurd rfl hi

theorem mem_tail_append {a b : List Instr} {i : Instr} (h : i ∈ (a ++ b).tail) : i ∈ a.tail ∨ i ∈ b := by
  cases a with
  | nil => exact .inr (List.mem_of_mem_tail h)
  | cons x a =>
    simp only [List.cons_append, List.tail_cons, List.mem_append] at h ⊢
    exact h

theorem tailOk {out rest : List Instr} (h1 : ∀ i ∈ out.tail, Special i = false) (h2 : ∀ i ∈ rest, Special i = false) :
    ∀ i ∈ (out ++ rest).tail, Special i = false := fun i hi => (mem_tail_append hi).elim (h1 i) (h2 i)

theorem before_all {n m : Nat} {refs : List FieldRef} (h : ∀ r ∈ refs, Before n r.name ∧ Before n r.value) (hm : n ≤ m) :
    ∀ r ∈ refs, Before m r.name ∧ Before m r.value := fun r hr => ⟨(h r hr).1.mono hm, (h r hr).2.mono hm⟩

theorem reserve_ge (cap n : Nat) : n ≤ reserve cap n ∧ cap ≤ reserve cap n := by unfold reserve; split <;> omega

/-- `processInput`, with what the parser does. -/
theorem processInput_cases {c : Conn} (hp : Plain c) {d : Dev} (hd : c.dev = some d) (h1 : c.st = .receivingHeaders) (hne : c.buf ++ d.inp ≠ []) :
    ∃ p, p ≤ (c.buf ++ d.inp).length ∧ Bound (c.parser.execute (c.buf ++ d.inp) c.parser.nread) p ∧
      ((c.parser.execute (c.buf ++ d.inp) c.parser.nread).cs = 58 ↔ (c.parser.execute (c.buf ++ d.inp) c.parser.nread).bodyStart ≠ 0) ∧
      ((c.parser.execute (c.buf ++ d.inp) c.parser.nread).bodyStart = 0 ∧ (c.parser.execute (c.buf ++ d.inp) c.parser.nread).nread = p ∨
        (c.parser.execute (c.buf ++ d.inp) c.parser.nread).bodyStart = p ∧ 0 < p ∧ (c.parser.execute (c.buf ++ d.inp) c.parser.nread).nread = p + 1) := by
  obtain ⟨a1, a2, a3, a4, a5⟩ := hp.headers h1
  have hlen : c.parser.nread ≤ (c.buf ++ d.inp).length := by rw [List.length_append]; omega
  obtain ⟨p, -, b2, b3, b4⟩ := Bound.execute a4 a2 hlen
  exact ⟨p, b2, b3, execute_finished a2 a3, b4⟩

theorem processInput_inv {c : Conn} {rest : List Instr} {cap : Nat} (h : MInv c (.processInput :: rest) cap) :
    MInv c.processInput.1 (c.processInput.2 ++ rest) (capacityAfter .processInput c cap) := by
  obtain ⟨hr, hcap, ht, htop⟩ := h
  have hp : Plain c := htop
  have ht' : ∀ i ∈ rest, Special i = false := ht
  by_cases h0 : c.st ≠ .receivingHeaders ∧ c.st ≠ .receivingContent
  · have e1 : c.processInput = (c, []) := by unfold Conn.processInput; rw [if_pos h0]
    have e2 : capacityAfter .processInput c cap = cap := by dsimp only [capacityAfter]; rw [if_pos h0]
    rw [e1, e2]
    exact ⟨hr, hcap, fun i hi => ht' i (List.mem_of_mem_tail hi), TopOk.plain hp ht'⟩
  · cases hd : c.dev with
    | none =>
      have e1 : c.processInput = ({ c with fault := some .nullDevice }, []) := by unfold Conn.processInput; rw [if_neg h0, hd]
      have e2 : capacityAfter .processInput c cap = cap := by dsimp only [capacityAfter]; rw [if_neg h0, hd]
      rw [e1, e2]
      exact ⟨hr, hcap, fun i hi => ht' i (List.mem_of_mem_tail hi), TopOk.plain ⟨hp.headers, hp.content⟩ ht'⟩
    | some d =>
      have e2 : (c.buf ++ d.inp).length ≤ capacityAfter .processInput c cap := by
        dsimp only [capacityAfter]
        rw [if_neg h0, hd, List.length_append]
        simp only []
        split
        · rename_i e; rw [e]; simpa using hcap
        · have := (reserve_ge cap (c.buf.length + d.inp.length + 1)).1; omega
      have hbl : c.buf.length ≤ (c.buf ++ d.inp).length := by rw [List.length_append]; omega
      by_cases h1 : c.st = .receivingHeaders
      · obtain ⟨a1, a2, a3, a4, a5⟩ := hp.headers h1
        have e1 : c.processInput = (if (c.fill d).parse.parser.nread > maxHeaderLength ∨ (c.fill d).parse.parser.hasError then ((c.fill d).parse, [.errorResponse 400])
            else if (c.fill d).parse.parser.isFinished then ((c.fill d).parse, [.recvContent]) else ((c.fill d).parse, [])) := by
          unfold Conn.processInput; rw [if_neg h0, hd]; simp only []; rw [if_pos (show (c.fill d).st = .receivingHeaders from h1)]
        have hbuf : (c.fill d).parse.buf = c.buf ++ d.inp := rfl
        have hst : (c.fill d).parse.st = .receivingHeaders := h1
        have hcl : (c.fill d).parse.clen = 0 := a1
        -- the parser afterwards
        obtain ⟨p, b1, b2, b3, b4⟩ : ∃ p, p ≤ (c.buf ++ d.inp).length ∧ Bound (c.fill d).parse.parser p ∧ ((c.fill d).parse.parser.cs = 58 ↔ (c.fill d).parse.parser.bodyStart ≠ 0) ∧
            ((c.fill d).parse.parser.bodyStart = 0 ∧ (c.fill d).parse.parser.nread = p ∨
             (c.fill d).parse.parser.bodyStart = p ∧ 0 < p ∧ (c.fill d).parse.parser.nread = p + 1) := by
          by_cases hne : c.buf ++ d.inp = []
          · have : (c.fill d).parse.parser = c.parser := by unfold Conn.parse; simp only []; exact if_pos hne
            rw [this]
            exact ⟨c.parser.nread, by omega, a4, ⟨fun e => absurd e a3, fun e => absurd a2 e⟩, .inl ⟨a2, rfl⟩⟩
          · have : (c.fill d).parse.parser = c.parser.execute (c.buf ++ d.inp) c.parser.nread := by unfold Conn.parse; simp only []; exact if_neg hne
            rw [this]
            exact processInput_cases hp hd h1 hne
        have hrefs : ∀ r ∈ (c.fill d).parse.refs, Before (c.fill d).parse.buf.length r.name ∧ Before (c.fill d).parse.buf.length r.value := by
          intro r hr'
          have : r ∈ c.refs ++ (c.fill d).parse.parser.fields.drop c.parser.fields.length := hr'
          rw [hbuf]
          rcases List.mem_append.1 this with e | e
          · exact before_all hr hbl r e
          · have := b2.fields r (List.mem_of_mem_drop e)
            exact ⟨this.1.mono b1, this.2.mono b1⟩
        rw [e1]
        split
        · exact ⟨hrefs, by rw [hbuf]; exact e2, ht', trivial⟩
        · split
          · rename_i hfin
            have hcs : (c.fill d).parse.parser.cs = 58 := by simpa [Parser.isFinished] using hfin
            have hb0 := b3.1 hcs
            have hbs : (c.fill d).parse.parser.bodyStart = p := by rcases b4 with ⟨e, -⟩ | ⟨e, -⟩; exact absurd e hb0; exact e
            refine ⟨hrefs, by rw [hbuf]; exact e2, ht', ?_⟩
            exact ⟨hst, hcl, by rw [hbs]; exact b2, by rw [hbs, hbuf]; exact b1⟩
          · rename_i hfin
            have hcs : (c.fill d).parse.parser.cs ≠ 58 := by simpa [Parser.isFinished] using hfin
            have hb0 : (c.fill d).parse.parser.bodyStart = 0 := Classical.byContradiction fun e => hcs (b3.2 e)
            have hnr : (c.fill d).parse.parser.nread = p := by rcases b4 with ⟨-, e⟩ | ⟨e, e', -⟩; exact e; omega
            refine ⟨hrefs, by rw [hbuf]; exact e2, fun i hi => ht' i (List.mem_of_mem_tail hi), TopOk.plain ⟨fun _ => ⟨hcl, hb0, hcs, by rw [hnr]; exact b2, by rw [hnr, hbuf]; exact b1⟩, fun e => by rw [hst] at e; cases e⟩ ht'⟩
      · have h2 : c.st = .receivingContent := by
          cases hs : c.st <;> simp_all
        obtain ⟨a1, a2⟩ := hp.content h2
        have e1 : c.processInput = (if ((c.fill d).buf.length : Int) - (c.fill d).parser.bodyStart ≥ (c.fill d).clen then ((c.fill d), [.sendHeaders]) else ((c.fill d), [])) := by
          unfold Conn.processInput; rw [if_neg h0, hd]; simp only []; rw [if_neg (show ¬ (c.fill d).st = .receivingHeaders from h1)]
        have hbuf : (c.fill d).buf = c.buf ++ d.inp := rfl
        have hrefs : ∀ r ∈ (c.fill d).refs, Before (c.fill d).buf.length r.name ∧ Before (c.fill d).buf.length r.value := before_all hr hbl
        rw [e1]
        split
        · rename_i hge
          refine ⟨hrefs, by rw [hbuf]; exact e2, ht', a2, a1, ?_⟩
          have hge : ((c.fill d).buf.length : Int) - c.parser.bodyStart ≥ c.clen := hge
          show c.parser.bodyStart + c.clen.toNat ≤ (c.fill d).buf.length
          omega
        · exact ⟨hrefs, by rw [hbuf]; exact e2, fun i hi => ht' i (List.mem_of_mem_tail hi), TopOk.plain ⟨fun e => absurd e h1, fun _ => ⟨a1, a2⟩⟩ ht'⟩

theorem recvContent_inv {c : Conn} {rest : List Instr} {cap : Nat} (h : MInv c (.recvContent :: rest) cap) :
    MInv c.recvContent.1 (c.recvContent.2 ++ rest) (capacityAfter .recvContent c cap) := by
  obtain ⟨hr, hcap, ht, h1, h2, h3, h4⟩ := h
  have ht' : ∀ i ∈ rest, Special i = false := ht
  have e2 : c.buf.length ≤ capacityAfter .recvContent c cap := by
    dsimp only [capacityAfter]
    split
    · exact Nat.le_trans hcap (reserve_ge _ _).2
    · exact hcap
  have hc : c.recvContent.1.buf.length = c.buf.length ∧ c.recvContent.1.refs = c.refs ∧ c.recvContent.1.parser = c.parser ∧ c.recvContent.1.st = .receivingContent ∧
      (c.recvContent.2 = [.errorResponse 400] ∨ c.recvContent.2 = [.errorResponse 413] ∨ c.recvContent.2 = [.processInput] ∧ 0 < c.recvContent.1.clen ∨ c.recvContent.2 = [.sendHeaders] ∧ c.recvContent.1.clen = 0) := by
    unfold Conn.recvContent
    rw [if_neg (by rw [h1]; simp)]
    simp only []
    have hset : (Conn.setup { c with st := .receivingContent }).buf.length = c.buf.length := setupHeaders_length _ _
    split
    · exact ⟨hset, rfl, rfl, rfl, .inl rfl⟩
    · split
      · exact ⟨hset, rfl, rfl, rfl, .inr (.inl rfl)⟩
      · split
        · rename_i hpos
          split
          · have := write_same ({ (Conn.setup { c with st := .receivingContent }) with clen := ((Conn.setup { c with st := .receivingContent }).announced (contentLengthIndex c.buf c.refs)).1 }) .interim
            refine ⟨?_, this.2.1, this.2.2.2.1, this.2.2.1, .inr (.inr (.inl ⟨rfl, ?_⟩))⟩
            · exact (congrArg List.length this.1).trans hset
            · exact this.2.2.2.2 ▸ hpos
          · exact ⟨hset, rfl, rfl, rfl, .inr (.inr (.inl ⟨rfl, hpos⟩))⟩
        · rename_i g1 g2 g3
          refine ⟨hset, rfl, rfl, rfl, .inr (.inr (.inr ⟨rfl, ?_⟩))⟩
          exact Int.le_antisymm (Int.not_lt.1 g3) (Int.not_lt.1 g1)
  obtain ⟨c1, c2, c3, c4, c5⟩ := hc
  refine ⟨by rw [c1, c2]; exact hr, by rw [c1]; exact e2, ?_, ?_⟩
  · apply tailOk _ ht'
    rcases c5 with e | e | ⟨e, -⟩ | ⟨e, -⟩ <;> rw [e] <;> simp
  · rcases c5 with e | e | ⟨e, e'⟩ | ⟨e, e'⟩ <;> rw [e]
    · trivial
    · trivial
    · exact ⟨fun g => (by rw [c4] at g; cases g), fun _ => ⟨by omega, by rw [c3]; exact h3⟩⟩
    · exact ⟨by rw [c3]; exact h3, by rw [e']; exact Int.le_refl _, by rw [c3, c1, e']; simpa using h4⟩

theorem sendHeaders_inv {c : Conn} {rest : List Instr} {cap : Nat} (h : MInv c (.sendHeaders :: rest) cap) :
    MInv c.sendHeaders.1 (c.sendHeaders.2 ++ rest) (capacityAfter .sendHeaders c cap) := by
  obtain ⟨hr, hcap, ht, h3, h1, h2⟩ := h
  have ht' : ∀ i ∈ rest, Special i = false := ht
  have hc : c.sendHeaders.1.buf.length = c.buf.length ∧ c.sendHeaders.1.refs = c.refs ∧ c.sendHeaders.1.st = .sendingHeaders ∧ ∀ j ∈ c.sendHeaders.2, Special j = false := by
    unfold Conn.sendHeaders
    split
    · rename_i e; exact ⟨rfl, rfl, e, by simp⟩
    · simp only []
      split
      · refine ⟨?_, rfl, rfl, by simp [Special]⟩
        exact (prepareFields_length _ _).trans (setupHeaders_length _ _)
      · exact ⟨prepareFields_length _ _, rfl, rfl, by simp [Special]⟩
  obtain ⟨c1, c2, c3, c4⟩ := hc
  refine ⟨by rw [c1, c2]; exact hr, by rw [c1]; exact hcap, tailOk (fun i hi => c4 i (List.mem_of_mem_tail hi)) ht', TopOk.plain ⟨fun e => (by rw [c3] at e; cases e), fun e => (by rw [c3] at e; cases e)⟩ ?_⟩
  intro i hi
  rcases List.mem_append.1 hi with e | e
  · exact c4 i e
  · exact ht' i e

theorem completedRest_inv {c : Conn} {rest : List Instr} {cap : Nat} (h : MInv c (.completedRest :: rest) cap) :
    MInv c.completedRest.1 (c.completedRest.2 ++ rest) (capacityAfter .completedRest c cap) := by
  obtain ⟨hr, hcap, ht, htop⟩ := h
  have hp : Plain c := htop
  have ht' : ∀ i ∈ rest, Special i = false := ht
  have hc : c.completedRest.1.refs = [] ∧ c.completedRest.1.st = c.st ∧ c.completedRest.1.parser = c.parser ∧ c.completedRest.1.clen = c.clen ∧
      c.completedRest.1.buf = (if (c.buf.length : Int) - c.parser.bodyStart - c.clen > 0 then rightBytes c.buf ((c.buf.length : Int) - c.parser.bodyStart - c.clen).toNat else []) ∧
      (∀ j ∈ c.completedRest.2.tail, Special j = false) ∧ (c.completedRest.2 = [.flushing] ∨ ∀ j ∈ c.completedRest.2, Special j = false) := by
    unfold Conn.completedRest
    simp only []
    split <;> exact ⟨rfl, rfl, rfl, rfl, rfl, by simp [Special], by simp [Special]⟩
  obtain ⟨c1, c2, c3, c4, c5, c6, c7⟩ := hc
  have hbuf : c.st = .receivingHeaders → c.completedRest.1.buf = c.buf := by
    intro e
    obtain ⟨a1, a2, -⟩ := hp.headers e
    rw [c5, a1, a2]
    split
    · unfold rightBytes; simp
    · rename_i g
      exact (List.length_eq_zero_iff.1 (by omega)).symm
  have hplain : Plain c.completedRest.1 := by
    refine ⟨fun e => ?_, fun e => ?_⟩
    · rw [c2] at e
      rw [c3, c4, hbuf e]
      exact hp.headers e
    · rw [c2] at e
      rw [c3, c4]
      exact hp.content e
  refine ⟨by rw [c1]; simp, ?_, tailOk c6 ht', ?_⟩
  · dsimp only [capacityAfter]
    split
    · exact Nat.le_refl _
    · rename_i g; rw [c5, if_neg g]; simp
  · rcases c7 with e | e
    · rw [e]; trivial
    · refine TopOk.plain hplain fun i hi => ?_
      rcases List.mem_append.1 hi with e' | e'
      · exact e i e'
      · exact ht' i e'

theorem toReceivingHeaders_plain {c : Conn} (hp : Plain c) : Plain c.toReceivingHeaders := by
  unfold Conn.toReceivingHeaders
  split
  · exact hp
  · exact ⟨fun _ => ⟨rfl, rfl, (by show (_ : Nat) ≠ 58; first | exact (by decide : (1 : Nat) ≠ 58) | exact (by decide : (0 : Nat) ≠ 58)), Bound.start c.parser, Nat.zero_le _⟩, fun e => nomatch e⟩

theorem toReceivingHeaders_same (c : Conn) : c.toReceivingHeaders.buf = c.buf ∧ c.toReceivingHeaders.refs = c.refs := by
  unfold Conn.toReceivingHeaders; split <;> exact ⟨rfl, rfl⟩

theorem completedRest2_inv {c : Conn} {rest : List Instr} {cap : Nat} (h : MInv c (.completedRest2 :: rest) cap) :
    MInv c.completedRest2.1 (c.completedRest2.2 ++ rest) (capacityAfter .completedRest2 c cap) := by
  obtain ⟨hr, hcap, ht, htop⟩ := h
  have hp : Plain c := htop
  have hs := toReceivingHeaders_same c
  have e : c.completedRest2 = (c.toReceivingHeaders, [.processInput]) := rfl
  rw [e]
  exact ⟨by rw [hs.1, hs.2]; exact hr, by rw [hs.1]; exact hcap, ht, toReceivingHeaders_plain hp⟩

theorem flushing_inv {c : Conn} {rest : List Instr} {cap : Nat} (h : MInv c (.flushing :: rest) cap) :
    MInv c.toFlushing.1 (c.toFlushing.2 ++ rest) (capacityAfter .flushing c cap) := by
  obtain ⟨hr, hcap, ht, -⟩ := h
  have hc : c.toFlushing.1.buf = c.buf ∧ c.toFlushing.1.refs = c.refs ∧ c.toFlushing.1.st = .flushing ∧ ∀ j ∈ c.toFlushing.2, Special j = false := by
    unfold Conn.toFlushing
    split
    · rename_i e; exact ⟨rfl, rfl, e, by simp⟩
    · exact ⟨rfl, rfl, rfl, by simp [Special]⟩
  obtain ⟨c1, c2, c3, c4⟩ := hc
  refine ⟨by rw [c1, c2]; exact hr, by rw [c1]; exact hcap, tailOk (fun i hi => c4 i (List.mem_of_mem_tail hi)) ht, TopOk.plain ⟨fun e => (by rw [c3] at e; cases e), fun e => (by rw [c3] at e; cases e)⟩ ?_⟩
  intro i hi
  rcases List.mem_append.1 hi with e | e
  · exact c4 i e
  · exact ht i e

theorem errorResponse_inv {c : Conn} {code : Int} {rest : List Instr} {cap : Nat} (h : MInv c (.errorResponse code :: rest) cap) :
    MInv (c.errorResponse code).1 ((c.errorResponse code).2 ++ rest) (capacityAfter (.errorResponse code) c cap) := by
  obtain ⟨hr, hcap, ht, -⟩ := h
  have ht : ∀ i ∈ rest, Special i = false := ht
  unfold Conn.errorResponse
  split
  · rename_i e
    exact ⟨hr, hcap, fun i hi => ht i (List.mem_of_mem_tail hi), TopOk.plain ⟨fun e' => (by rw [e] at e'; cases e'), fun e' => (by rw [e] at e'; cases e')⟩ ht⟩
  · have := write_same c (.errorReply code)
    exact ⟨by rw [this.1, this.2.1]; exact hr, by rw [this.1]; exact hcap, ht, trivial⟩

theorem exec_inv {k : Nat} {i : Instr} {c : Conn} {rest : List Instr} {cap : Nat} (h : MInv c (i :: rest) cap) :
    MInv (exec k i c).1 ((exec k i c).2 ++ rest) (capacityAfter i c cap) := by
  by_cases hi : i ≠ .processInput ∧ i ≠ .recvContent ∧ i ≠ .sendHeaders ∧ i ≠ .completedRest ∧ i ≠ .completedRest2 ∧ i ≠ .flushing ∧ ∀ e, i ≠ .errorResponse e
  · obtain ⟨a1, a2⟩ := exec_calm k i hi c
    obtain ⟨hr, hcap, ht, htop⟩ := h
    have hs : Special i = false := by
      obtain ⟨-, b1, b2, -, -, b3, b4⟩ := hi
      cases i <;> simp [Special] at * 
    have hp : Plain c := htop.out (fun j l e => by cases e; exact hs)
    have e2 : capacityAfter i c cap = cap := by
      obtain ⟨b0, b1, b2, b2', -, b3, b4⟩ := hi
      cases i <;> first | rfl | exact absurd rfl b0 | exact absurd rfl b1 | exact absurd rfl b2'
    rw [e2]
    refine ⟨by rw [a1.1, a1.2.1]; exact hr, by rw [a1.1]; exact hcap, tailOk (fun j hj => a2 j (List.mem_of_mem_tail hj)) ht, TopOk.plain (a1.plain hp) ?_⟩
    intro j hj
    rcases List.mem_append.1 hj with e | e
    · exact a2 j e
    · exact ht j e
  · cases i
    case processInput => exact processInput_inv h
    case recvContent => exact recvContent_inv h
    case sendHeaders => exact sendHeaders_inv h
    case completedRest => exact completedRest_inv h
    case completedRest2 => exact completedRest2_inv h
    case flushing => exact flushing_inv h
    case errorResponse code => exact errorResponse_inv h
    all_goals exact absurd ⟨by simp, by simp, by simp, by simp, by simp, by simp, by simp⟩ hi

theorem call_special (a : Call) : Special a.instr = false := by cases a <;> rfl

theorem MInv.plain {s : Conf} {cap : Nat} (h : MInv s.c s.stack cap) (he : s.inEnv = true) : Plain s.c ∧ ∀ i ∈ s.stack, Special i = false := by
  have h0 : ∀ i l, s.stack = i :: l → Special i = false := by
    intro i l e
    unfold Conf.inEnv at he
    rw [e] at he
    cases i <;> simp at he
    rfl
  refine ⟨h.top.out h0, fun i hi => ?_⟩
  cases hs : s.stack with
  | nil => rw [hs] at hi; cases hi
  | cons j l =>
    rw [hs] at hi
    rcases List.mem_cons.1 hi with rfl | hi
    · exact h0 _ _ hs
    · have := h.tail; rw [hs] at this; exact this i hi

theorem step_inv {s s' : Conf} {l : Label} {cap : Nat} (h : MInv s.c s.stack cap) (hs : s.step l = some s') : MInv s'.c s'.stack (s.capacityAfter l cap) := by
  cases l with
  | tau k =>
    obtain ⟨i, rest, h1, h2, rfl⟩ := Depth.step_tau hs
    rw [h1] at h
    have : s.capacityAfter (.tau k) cap = Pillow.capacityAfter i s.c cap := by unfold Conf.capacityAfter; rw [h1]
    rw [this]
    exact exec_inv h
  | ret =>
    obtain ⟨rest, h1, rfl⟩ := Depth.step_ret hs
    have hp := h.plain (by unfold Conf.inEnv; rw [h1])
    exact ⟨h.refs, h.cap, fun i hi => hp.2 i (by rw [h1]; exact List.mem_cons_of_mem _ (List.mem_of_mem_tail hi)), TopOk.plain hp.1 fun i hi => hp.2 i (by rw [h1]; exact List.mem_cons_of_mem _ hi)⟩
  | call a =>
    obtain ⟨-, he, hs⟩ : s.c.fault.isSome = false ∧ s.inEnv = true ∧ s' = ⟨s.c, a.instr :: s.stack⟩ := by
      unfold Conf.step at hs; split at hs <;> try contradiction
      simp only [] at hs; split at hs <;> try contradiction
      rename_i g1 g2; cases hs; exact ⟨by simpa using g1, g2, rfl⟩
    subst hs
    have hp := h.plain he
    refine ⟨h.refs, h.cap, hp.2, TopOk.plain hp.1 fun i hi => ?_⟩
    rcases List.mem_cons.1 hi with rfl | hi
    · exact call_special a
    · exact hp.2 i hi
  | recv bs =>
    unfold Conf.step at hs; split at hs <;> try contradiction
    simp only [] at hs; split at hs <;> try contradiction
    rename_i he
    have hp := h.plain he
    split at hs <;> cases hs
    exact ⟨h.refs, h.cap, h.tail, TopOk.plain ⟨hp.1.headers, hp.1.content⟩ hp.2⟩
  | bytesWritten k =>
    unfold Conf.step at hs; split at hs <;> try contradiction
    simp only [] at hs; split at hs <;> try contradiction
    rename_i he
    have hp := h.plain he
    split at hs <;> cases hs
    have hsp : ∀ i ∈ (if (by assumption : Dev).drainConn = true then Instr.drain :: s.stack else s.stack), Special i = false := by
      intro i hi
      split at hi
      · rcases List.mem_cons.1 hi with rfl | hi
        · rfl
        · exact hp.2 i hi
      · exact hp.2 i hi
    exact ⟨h.refs, h.cap, fun i hi => hsp i (List.mem_of_mem_tail hi), TopOk.plain ⟨hp.1.headers, hp.1.content⟩ hsp⟩
  | init =>
    unfold Conf.step at hs; split at hs <;> try contradiction
    simp only [] at hs; split at hs <;> try contradiction
    rename_i he
    have hp := h.plain he
    cases hs
    have hc : s.c.initialize.buf = [] ∧ s.c.initialize.refs = [] ∧ Plain s.c.initialize := by
      have h0 := toReceivingHeaders_same { s.c with dev := some {}, parser := {}, buf := [], refs := [], params := [], viewsValid := false }
      have h1 : Plain (Conn.toReceivingHeaders { s.c with dev := some {}, parser := {}, buf := [], refs := [], params := [], viewsValid := false }) := by
        unfold Conn.toReceivingHeaders
        split
        · rename_i e
          exact ⟨fun _ => ⟨(hp.1.headers e).1, rfl, (by show (_ : Nat) ≠ 58; first | exact (by decide : (1 : Nat) ≠ 58) | exact (by decide : (0 : Nat) ≠ 58)), Bound.zero, Nat.zero_le _⟩, fun e' => by rw [e] at e'; cases e'⟩
        · exact ⟨fun _ => ⟨rfl, rfl, (by show (_ : Nat) ≠ 58; first | exact (by decide : (1 : Nat) ≠ 58) | exact (by decide : (0 : Nat) ≠ 58)), Bound.start _, Nat.zero_le _⟩, fun e => nomatch e⟩
      exact ⟨h0.1, h0.2, ⟨h1.headers, h1.content⟩⟩
    refine ⟨by show ∀ r ∈ s.c.initialize.refs, _; rw [hc.2.1]; simp, by show s.c.initialize.buf.length ≤ _; rw [hc.1]; simp, h.tail, TopOk.plain hc.2.2 hp.2⟩
  | readParams =>
    unfold Conf.step at hs; split at hs <;> try contradiction
    simp only [] at hs; split at hs <;> try contradiction
    rename_i he
    have hp := h.plain he
    cases hs
    have hc : Calm s.c s.c.requestParams := by unfold Conn.requestParams; split <;> exact Calm.of_eq ⟨rfl, rfl, rfl, rfl, rfl⟩
    exact ⟨by show ∀ r ∈ s.c.requestParams.refs, _; rw [hc.2.1, hc.1]; exact h.refs, by show s.c.requestParams.buf.length ≤ _; rw [hc.1]; exact h.cap, h.tail, TopOk.plain (hc.plain hp.1) hp.2⟩
  | setParam n v =>
    unfold Conf.step at hs; split at hs <;> try contradiction
    simp only [] at hs; split at hs <;> try contradiction
    rename_i he
    have hp := h.plain he
    cases hs
    have hc : Calm s.c (s.c.setRequestParam n v) := by unfold Conn.setRequestParam Conn.requestParams; simp only []; split <;> exact Calm.of_eq ⟨rfl, rfl, rfl, rfl, rfl⟩
    exact ⟨by show ∀ r ∈ (s.c.setRequestParam n v).refs, _; rw [hc.2.1, hc.1]; exact h.refs, by show (s.c.setRequestParam n v).buf.length ≤ _; rw [hc.1]; exact h.cap, h.tail, TopOk.plain (hc.plain hp.1) hp.2⟩
  | readDecoded d =>
    unfold Conf.step at hs; split at hs <;> try contradiction
    simp only [] at hs; split at hs <;> try contradiction
    rename_i he
    have hp := h.plain he
    cases hs
    have hc : Calm s.c (s.c.readDecoded d) := by cases d <;> unfold Conn.readDecoded <;> simp only [] <;> split <;> exact Calm.of_eq ⟨rfl, rfl, rfl, rfl, rfl⟩
    exact ⟨by show ∀ r ∈ (s.c.readDecoded d).refs, _; rw [hc.2.1, hc.1]; exact h.refs, by show (s.c.readDecoded d).buf.length ≤ _; rw [hc.1]; exact h.cap, h.tail, TopOk.plain (hc.plain hp.1) hp.2⟩

end Pillow.Memory
