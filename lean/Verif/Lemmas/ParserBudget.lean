import Verif.Lemmas.ParserRel
/-!
# The parser reports no more content than it is given

An invariant `I k` (`J k` when a callback has paused the parser) that leaves room for `k` more bytes of content holds, after the parser has consumed some of the input, with room for what is left of it.
-/
namespace Pillow
variable {σ : Type}

/-- The content a callback brings. -/
def Cb.size : Cb → Nat
  | .body bs => bs.length
  | _ => 0

structure Budget (cb : CB σ) (I J : Nat → σ → Prop) : Prop where
  mono : ∀ {j k s}, j ≤ k → I k s → I j s
  lower : ∀ {j k s}, j ≤ k → J k s → J j s
  sub : ∀ {k s}, I k s → J k s
  keep : ∀ c p s k, p.errno = .ok → I (c.size + k) s → (cb c p s).1.errno = .ok → I k (cb c p s).2
  rest : ∀ c p s k, p.errno = .ok → I (c.size + k) s → J k (cb c p s).2
  stop : ∀ bs p s k, p.errno = .ok → I (bs.length + k) s → (cb (.body bs) p s).1.errno ≠ .ok → ∀ j, J j (cb (.body bs) p s).2

/-- The content that is marked, when the loop goes on. -/
def Marks.held (m : Marks) : Nat := (m.body.getD []).length

/-- What may still be reported after `n` of `L` bytes. -/
def Marks.ahead (m : Marks) (L n : Nat) : Nat := (match m.body with | none => 0 | some b => b.length + min n L) + (L - n)

def ResB (I J : Nat → σ → Prop) (L e : Nat) : Res σ → Prop
  | .go p s m n => p.errno = .ok ∧ I (m.ahead L n + e) s
  | .ret _ s n => J (L - n + e) s

section
variable {cb : CB σ} {I J : Nat → σ → Prop} (hb : Budget cb I J) {L e : Nat}
include hb

theorem b_go {p : HParser} {s : σ} {m : Marks} {n k : Nat} (he : p.errno = .ok) (hm : m.ahead L n + e ≤ k) (hi : I k s) : ResB I J L e (.go p s m n) := ⟨he, hb.mono hm hi⟩

theorem ahead_one (m : Marks) (hL : 1 ≤ L) : m.ahead L 1 ≤ m.held + L := by
  unfold Marks.ahead Marks.held
  cases m.body with
  | none => simp
  | some b => simp; omega

theorem b_step {p : HParser} {s : σ} {m : Marks} (hL : 1 ≤ L) (he : p.errno = .ok) (hi : I (m.held + L + e) s) : ResB I J L e (.go p s m 1) :=
  b_go hb he (by have := ahead_one hb m hL (L := L); omega) hi

theorem b_fail {p : HParser} {s : σ} {k : Nat} {x : Errno} (hi : I (k + L + e) s) : ResB I J L e (fail p s x) := hb.sub (hb.mono (by omega) hi)

theorem b_cb {c : Cb} {p : HParser} {s : σ} {n k : Nat} {f : HParser → σ → Res σ} (he : p.errno = .ok) (hc : c.size = 0) (hi : I k s) (hk : L + e ≤ k)
    (hf : ∀ q s, q.errno = .ok → I k s → ResB I J L e (f q s)) :
    ResB I J L e (if (cb c p s).1.errno ≠ .ok then .ret (cb c p s).1 (cb c p s).2 n else f (cb c p s).1 (cb c p s).2) := by
  have h0 : I (c.size + k) s := by rw [hc, Nat.zero_add]; exact hi
  by_cases hp : (cb c p s).1.errno = .ok
  · rw [if_neg (by simp [hp])]
    exact hf _ _ hp (hb.keep c p s k he h0 hp)
  · rw [if_pos hp]
    exact hb.lower (by omega) (hb.rest c p s k he h0)

theorem b_notify {c : Cb} (hc : c.size = 0) {p : HParser} {s : σ} {m : Marks} (hL : 1 ≤ L) (he : p.errno = .ok) (hi : I (m.held + L + e) s) : ResB I J L e (notify cb c p s m) := by
  unfold notify
  exact b_cb hb (f := fun q s => .go q s m 1) ((assert_errno _ _).trans he) hc hi (by omega) fun q s hq hi => b_step hb hL hq hi

theorem b_dataField {p : HParser} {s : σ} {m : Marks} (hL : 1 ≤ L) (he : p.errno = .ok) (hi : I (m.held + L + e) s) : ResB I J L e (dataField cb p s m) := by
  unfold dataField
  split
  · exact b_step hb hL he hi
  · exact b_cb hb (f := fun q s => .go q s { m with field := none } 1) ((assert_errno _ _).trans he) rfl hi (by omega) fun q s hq hi => b_step hb hL hq hi

theorem b_dataValue {p : HParser} {s : σ} {m : Marks} (hL : 1 ≤ L) (he : p.errno = .ok) (hi : I (m.held + L + e) s) : ResB I J L e (dataValue cb p s m) := by
  unfold dataValue
  split
  · exact b_step hb hL he hi
  · exact b_cb hb (f := fun q s => .go q s { m with value := none } 1) ((assert_errno _ _).trans he) rfl hi (by omega) fun q s hq hi => b_step hb hL hq hi

theorem b_dataBody {p : HParser} {s : σ} {m : Marks} (hL : 1 ≤ L) (he : p.errno = .ok) (hi : I (m.held + L + e) s) : ResB I J L e (dataBody cb p s m) := by
  unfold dataBody
  split
  · exact b_step hb hL he hi
  · rename_i bs hm
    have hs : m.held = bs.length := by unfold Marks.held; rw [hm]; rfl
    dsimp only
    generalize hq : HParser.assert p _ = q
    have hqe : q.errno = .ok := by rw [← hq, assert_errno]; exact he
    have h0 : I ((Cb.body bs).size + (L + e)) s := by show I (bs.length + (L + e)) s; rw [← hs]; exact hb.mono (by omega) hi
    by_cases hp : (cb (.body bs) q s).1.errno = .ok
    · rw [if_neg (by simp [hp])]
      exact b_go hb hp (by unfold Marks.ahead; simp) (hb.keep (.body bs) q s (L + e) hqe h0 hp)
    · rw [if_pos hp]
      exact hb.lower (by omega) (hb.rest (.body bs) q s (L + e) hqe h0)

theorem b_headersDone {p : HParser} {s : σ} {m : Marks} {ch : Byte} (hL : 1 ≤ L) (he : p.errno = .ok) (hi : I (m.held + L + e) s) : ResB I J L e (doHeadersDone cb p s m ch) := by
  unfold doHeadersDone
  split
  · exact b_fail hb hi
  · dsimp only
    split
    · generalize hq : HParser.assert _ _ = q
      have hqe : q.errno = .ok := by rw [← hq, assert_errno]; exact he
      have := hb.rest .messageComplete q s _ hqe (by show I (0 + _) s; rw [Nat.zero_add]; exact hi)
      exact hb.lower (by omega) this
    · repeat' split
      all_goals first | exact b_notify hb rfl hL (by exact he) hi | exact b_step hb hL (by exact he) hi

theorem b_headersAlmostDone {p : HParser} {s : σ} {m : Marks} {ch : Byte} (hL : 1 ≤ L) (he : p.errno = .ok) (hi : I (m.held + L + e) s) : ResB I J L e (doHeadersAlmostDone cb p s m ch) := by
  unfold doHeadersAlmostDone
  split
  · exact b_fail hb hi
  · dsimp only
    split
    · exact b_notify hb rfl hL (by exact he) hi
    · exact b_cb hb (f := fun q s => doHeadersDone cb q s m ch) (by exact he) rfl hi (by omega) fun q s hq hi => b_headersDone hb hL hq hi

theorem b_fieldStart {p : HParser} {s : σ} {m : Marks} {ch : Byte} (hL : 1 ≤ L) (he : p.errno = .ok) (hi : I (m.held + L + e) s) : ResB I J L e (doFieldStart cb p s m ch) := by
  unfold doFieldStart; dsimp only
  split
  · exact b_step hb hL (by exact he) hi
  · split
    · exact b_headersAlmostDone hb hL (by exact he) hi
    · split
      · exact b_fail hb hi
      · exact b_step hb hL (by exact he) hi

theorem b_almostDone {p : HParser} {s : σ} {m : Marks} {ch : Byte} (hL : 1 ≤ L) (he : p.errno = .ok) (hi : I (m.held + L + e) s) : ResB I J L e (doAlmostDone p s m ch) := by
  unfold doAlmostDone; dsimp only
  repeat' split
  all_goals first | exact b_fail hb hi | exact b_step hb hL (by exact he) hi

theorem b_field {p : HParser} {s : σ} {m : Marks} {ch : Byte} (hL : 1 ≤ L) (he : p.errno = .ok) (hi : I (m.held + L + e) s) : ResB I J L e (doField cb p s m ch) := by
  unfold doField; dsimp only
  repeat' split
  all_goals first | exact b_fail hb hi | exact b_dataField hb hL (by exact he) hi | exact b_step hb hL ((fieldChar_errno _ _ _).trans he) hi

theorem b_valueStart {p : HParser} {s : σ} {m : Marks} {ch : Byte} (hL : 1 ≤ L) (he : p.errno = .ok) (hi : I (m.held + L + e) s) : ResB I J L e (doValueStart cb p s m ch) := by
  unfold doValueStart; dsimp only
  repeat' split
  all_goals first | exact b_fail hb hi | exact b_dataValue hb hL (by exact he) hi | exact b_step hb hL (by exact he) hi

theorem b_value {p : HParser} {s : σ} {m : Marks} {ch : Byte} (hL : 1 ≤ L) (he : p.errno = .ok) (hi : I (m.held + L + e) s) : ResB I J L e (doValue cb p s m ch) := by
  unfold doValue; dsimp only
  split
  · exact b_dataValue hb hL (by exact he) hi
  · split
    · split
      · exact b_almostDone hb hL (by exact he) hi
      · exact b_cb hb (f := fun q s => doAlmostDone q s { m with value := none } ch) ((assert_errno _ _).trans (by exact he)) rfl hi (by omega) fun q s hq hi => b_almostDone hb hL hq hi
    · split
      · exact b_fail hb hi
      · rename_i hq
        exact b_step hb hL ((valueChar_errno hq).trans he) hi

theorem b_mark {p : HParser} {s : σ} {m : Marks} {n : Nat} (hL : 1 ≤ L) (he : p.errno = .ok) (hi : I (m.held + L + e) s) : ResB I J L e (.go p s { m with body := m.body.or (some []) } n) := by
  refine b_go hb he ?_ hi
  unfold Marks.ahead Marks.held
  cases m.body with
  | none => simp; omega
  | some b => simp; omega

theorem b_identity {p : HParser} {s : σ} {m : Marks} {rest : Bytes} (hL : 1 ≤ L) (hr : rest.length = L) (he : p.errno = .ok) (hi : I (m.held + L + e) s) : ResB I J L e (doBodyIdentity cb p s m rest) := by
  unfold doBodyIdentity; dsimp only
  generalize hp1 : HParser.assert p _ = p1
  have e1 : p1.errno = .ok := by rw [← hp1, assert_errno]; exact he
  generalize hn : min p.contentLength rest.length = n
  have hnL : n ≤ L := by omega
  split
  · generalize hq : HParser.assert _ _ = q
    have hqe : q.errno = .ok := by rw [← hq, assert_errno]; exact e1
    have hlen : ((m.body.or (some [])).getD [] ++ rest.take n).length = m.held + n := by
      unfold Marks.held
      cases m.body <;> simp <;> omega
    generalize (m.body.or (some [])).getD [] ++ rest.take n = bs at hlen
    have hin : I (bs.length + (L - n + e)) s := by rw [hlen]; exact hb.mono (by omega) hi
    by_cases hp : (cb (.body bs) q s).1.errno = .ok
    · rw [if_neg (by simp [hp])]
      have h1 := hb.keep (.body bs) q s (L - n + e) hqe hin hp
      have h1' : I (Cb.messageComplete.size + (L - n + e)) (cb (.body bs) q s).2 := by show I (0 + _) _; rw [Nat.zero_add]; exact h1
      generalize hq' : HParser.assert _ _ = q'
      have hqe' : q'.errno = .ok := by rw [← hq', assert_errno]; exact hp
      have h2 := hb.keep .messageComplete q' (cb (.body bs) q s).2 (L - n + e) hqe' h1'
      have h3 := hb.rest .messageComplete q' (cb (.body bs) q s).2 (L - n + e) hqe' h1'
      generalize cb .messageComplete q' (cb (.body bs) q s).2 = r at h2 h3
      by_cases hr2 : r.1.errno = .ok
      · rw [if_neg (by simp [hr2])]
        exact b_go hb hr2 (by unfold Marks.ahead; simp) (h2 hr2)
      · rw [if_pos hr2]
        exact h3
    · rw [if_pos hp]
      exact hb.stop bs q s _ hqe hin hp _
  · exact b_mark hb hL (by exact e1) hi

theorem b_chunk {p : HParser} {s : σ} {m : Marks} {rest : Bytes} (hL : 1 ≤ L) (he : p.errno = .ok) (hi : I (m.held + L + e) s) : ResB I J L e (doChunkData p s m rest) := by
  unfold doChunkData; dsimp only
  generalize hp1 : HParser.assert p _ = p1
  have e1 : p1.errno = .ok := by rw [← hp1, assert_errno]; exact he
  refine b_mark hb hL ?_ hi
  split <;> exact e1

theorem b_switch {p : HParser} {s : σ} {m : Marks} {ch : Byte} {rest : Bytes} (hL : 1 ≤ L) (hr : rest.length = L) (he : p.errno = .ok) (hi : I (m.held + L + e) s) :
    ResB I J L e (switch cb p s m ch rest) := by
  unfold switch
  split <;> (try dsimp only)
  all_goals first
    | exact b_fieldStart hb hL he hi
    | exact b_field hb hL he hi
    | exact b_valueStart hb hL he hi
    | exact b_value hb hL he hi
    | exact b_almostDone hb hL he hi
    | exact b_headersAlmostDone hb hL he hi
    | exact b_headersDone hb hL he hi
    | exact b_identity hb hL hr he hi
    | exact b_chunk hb hL he hi
    | exact b_mark hb hL he hi
    | skip
  all_goals (have hA : ∀ b, (p.assert b).errno = .ok := fun b => (assert_errno p b).trans he)
  all_goals (repeat' split)
  all_goals first
    | exact b_fail hb hi
    | exact b_notify hb rfl hL (by exact he) hi
    | exact b_step hb hL (by exact he) hi
    | exact b_step hb hL (hA _) hi
    | exact b_dataBody hb hL (hA _) hi
    | exact b_fieldStart hb hL (by exact he) hi
    | (rename_i hq; exact b_step hb hL ((addDigit_errno hq).trans (hA _)) hi)

theorem b_opt (o : Option Cb) (k : Nat) {q : HParser} {s : σ} (hq : q.errno = .ok) (hi : I ((o.elim 0 Cb.size) + k) s) :
    J k (optCb cb o (q, s)).2 ∧ ((optCb cb o (q, s)).1.errno = .ok → I k (optCb cb o (q, s)).2) := by
  cases o with
  | none =>
    have := hb.mono (Nat.le_add_left _ _) hi
    exact ⟨hb.sub this, fun _ => this⟩
  | some c => exact ⟨hb.rest c _ s k ((assert_errno _ _).trans hq) hi, hb.keep c _ s k ((assert_errno _ _).trans hq) hi⟩

theorem b_leftover {p : HParser} {s : σ} {m : Marks} (he : p.errno = .ok) (hi : I (m.held + e) s) : J e (leftover cb p s m).2 := by
  rw [leftover_opt cb p s m _ rfl]
  have h1 := b_opt hb (m.field.map .field) (m.held + e) ((assert_errno p (oneMark m)).trans he) (s := s) (by cases m.field <;> exact hb.mono (Nat.le_of_eq (Nat.zero_add _)) hi)
  generalize optCb cb (m.field.map .field) (p.assert (oneMark m), s) = x at h1 ⊢
  obtain ⟨q1, s1⟩ := x
  by_cases hq1 : q1.errno = .ok
  · have hn1 : ¬ q1.errno ≠ .ok := fun h => h hq1
    simp only [if_neg hn1]
    have h2 := b_opt hb (m.value.map .value) (m.held + e) hq1 (s := s1) (by cases m.value <;> exact hb.mono (Nat.le_of_eq (Nat.zero_add _)) (h1.2 hq1))
    generalize optCb cb (m.value.map .value) (q1, s1) = x at h2 ⊢
    obtain ⟨q2, s2⟩ := x
    by_cases hq2 : q2.errno = .ok
    · have hn2 : ¬ q2.errno ≠ .ok := fun h => h hq2
      simp only [if_neg hn2]
      refine (b_opt hb (m.body.map .body) e hq2 ?_).1
      have h2 := h2.2 hq2
      unfold Marks.held at h2
      cases hm : m.body with
      | none => rw [hm] at h2; exact h2
      | some b => rw [hm] at h2; exact h2
    · have hn2 : q2.errno ≠ .ok := hq2
      simp only [if_pos hn2]
      exact hb.lower (by omega) h2.1
  · have hn1 : q1.errno ≠ .ok := hq1
    simp only [if_pos hn1]
    exact hb.lower (by omega) h1.1

theorem adv_held (m : Marks) (bs : Bytes) (n k : Nat) (h : bs.length = min n L) (hk : k ≤ L - n) : (m.adv bs).held + k ≤ m.ahead L n := by
  unfold Marks.adv Marks.held Marks.ahead
  cases m.body with
  | none => simp; omega
  | some b => simp; omega

theorem b_execLoop : ∀ (data : Bytes) (p : HParser) (s : σ) (m : Marks) (pos e : Nat), p.errno = .ok → I (m.held + data.length + e) s →
    J (pos + data.length - (execLoop cb p s m data pos).2.2 + e) (execLoop cb p s m data pos).2.1
  | [], p, s, m, pos, e, he, hi => by
    unfold execLoop
    exact hb.lower (by simp) (b_leftover hb (e := e) he (by simpa using hi))
  | ch :: tl, p, s, m, pos, e, he, hi => by
    rw [execLoop_cons]
    have hce : (counted p).errno = .ok := (counted_facts p).2.trans he
    generalize counted p = q at hce ⊢
    split
    · exact hb.sub (hb.mono (by dsimp only; omega) hi)
    · have hs := b_switch hb (L := (ch :: tl).length) (e := e) (m := m) (ch := ch) (rest := ch :: tl) (by simp) rfl hce hi
      revert hs
      cases switch cb q s m ch (ch :: tl) with
      | ret p1 s1 n1 =>
        intro hs
        refine hb.lower ?_ hs
        dsimp only
        omega
      | go p1 s1 m1 n1 =>
        rintro ⟨h4, h5⟩
        by_cases hn : n1 = 0
        · subst hn
          have := b_execLoop (tl.drop (0 - 1)) p1 s1 (m1.adv ((ch :: tl).take 0)) (pos + 0) (e + 1) h4 (hb.mono (by
            have := adv_held hb m1 ((ch :: tl).take 0) 0 (tl.length + 1) (L := (ch :: tl).length) (by simp) (by simp)
            simp at this ⊢; omega) h5)
          refine hb.lower ?_ this
          simp only [List.length_cons, List.length_drop, Nat.add_zero, Nat.zero_sub, Nat.sub_zero, List.drop_zero]
          omega
        · have hl := adv_held hb m1 ((ch :: tl).take n1) n1 (tl.drop (n1 - 1)).length (L := (ch :: tl).length) (by simp) (by simp; omega)
          have := b_execLoop (tl.drop (n1 - 1)) p1 s1 (m1.adv ((ch :: tl).take n1)) (pos + n1) e h4 (hb.mono (by omega) h5)
          refine hb.lower ?_ this
          dsimp only
          simp only [List.length_cons, List.length_drop]
          omega
termination_by data => data.length
decreasing_by all_goals (simp; try omega)

theorem b_execute {p : HParser} {s : σ} {data : Bytes} (e : Nat) (hi : I (data.length + e) s) : J (data.length - (execute cb p s data).2.2 + e) (execute cb p s data).2.1 := by
  unfold execute
  by_cases he : p.errno = .ok
  · have hn : ¬ p.errno ≠ .ok := fun h => h he
    simp only [if_neg hn]
    cases data with
    | nil =>
      dsimp only
      split
      · exact hb.lower (by simp) (hb.rest .messageComplete p s e he (by exact hi))
      · exact hb.sub (hb.mono (by simp) hi)
      · exact hb.sub (hb.mono (by simp) hi)
      · exact hb.sub (hb.mono (by simp) hi)
    | cons c tl =>
      have := b_execLoop hb (c :: tl) p s { field := if p.state = .field then some [] else none, value := if p.state = .value then some [] else none } 0 e he
        (hb.mono (by simp [Marks.held]) hi)
      simpa using this
  · simp only [if_pos he]
    exact hb.sub (hb.mono (by simp) hi)

end

end Pillow
