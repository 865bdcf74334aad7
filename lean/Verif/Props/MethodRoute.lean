import Verif.Spec.MethodRoute
/-!
# C81: routes to methods of objects
-/
namespace Pillow.Props
open Pillow Pillow.Spec

theorem ident_paren {s : Bytes} (h : Identifier s) : 40 ∉ s := by
  intro hm
  have := h.2.1 40 hm
  revert this
  decide

theorem split_paren : ∀ {a b x y : Bytes}, 40 ∉ a → 40 ∉ b → a ++ 40 :: x = b ++ 40 :: y → a = b ∧ x = y
  | [], [], _, _, _, _, e => ⟨rfl, by simpa using e⟩
  | [], z :: b, _, _, _, hb, e => by simp only [List.nil_append, List.cons_append, List.cons.injEq] at e; exact absurd (by rw [e.1]; simp) hb
  | z :: a, [], _, _, ha, _, e => by simp only [List.nil_append, List.cons_append, List.cons.injEq] at e; exact absurd (by rw [e.1]; simp) ha
  | z :: a, w :: b, _, _, ha, hb, e => by
    simp only [List.cons_append, List.cons.injEq] at e
    obtain ⟨h1, h2⟩ := split_paren (by simp at ha; exact ha.2) (by simp at hb; exact hb.2) e.2
    exact ⟨by rw [e.1, h1], h2⟩

theorem join_one {ps : List Bytes} {x : Bytes} (h : List.intercalate b!"," ps = x) (hx : 44 ∉ x) (hne : x ≠ []) : ps = [x] := by
  match ps, h with
  | [], h => exact absurd (by rw [← h]; rfl) hne
  | [p], h => rw [← h]; simp [List.intercalate]
  | p :: q :: ps, h => exact absurd (by rw [← h]; simp [List.intercalate, List.intersperse]) hx

theorem join_paren {ps : List Bytes} (h : ∀ p ∈ ps, 40 ∉ p) : 40 ∉ List.intercalate b!"," ps := by
  induction ps with
  | nil => simp [List.intercalate]
  | cons p ps ih =>
    cases ps with
    | nil => simpa [List.intercalate] using h p (by simp)
    | cons q qs =>
      have := ih (fun x hx => h x (by simp [hx]))
      rw [show List.intercalate b!"," (p :: q :: qs) = p ++ (b!"," ++ List.intercalate b!"," (q :: qs)) by simp [List.intercalate, List.intersperse]]
      rw [List.mem_append, List.mem_append]
      rintro (k | k | k)
      · exact h p (by simp) k
      · revert k; decide
      · exact this k

/-- The signature tells the name and the parameter. -/
theorem signature_iff {m : MetaMethod} (h : Identifier m.name) {name : Bytes} (hn : Identifier name) :
    m.signature = name ++ b!"(" ++ connectionType ++ b!")" ↔ m.name = name ∧ m.params = [connectionType] := by
  unfold MetaMethod.signature
  constructor
  · intro e
    have e' : m.name ++ 40 :: (List.intercalate b!"," m.params ++ b!")") = name ++ 40 :: (connectionType ++ b!")") := by simpa using e
    obtain ⟨h1, h2⟩ := split_paren (ident_paren h) (ident_paren hn) e'
    exact ⟨h1, join_one (by simpa using h2) (by decide) (by decide)⟩
  · rintro ⟨h1, h2⟩
    rw [h1, h2]; simp [List.intercalate]

theorem find_first {α : Type _} {p : α → Bool} {l before after : List α} {x : α} (h : l = before ++ x :: after) (hx : p x = true) (hb : ∀ y ∈ before, p y = false) : l.find? p = some x := by
  subst h
  induction before with
  | nil => simp [hx]
  | cons y ys ih =>
    rw [List.cons_append, List.find?_cons, hb y (by simp)]
    exact ih (fun z hz => hb z (by simp [hz]))

theorem no_slot_name {o : MetaObject} (hn : Named o) {name : Bytes} (h : 40 ∉ name) : o.slot? name = none := by
  unfold MetaObject.slot?
  rw [List.find?_eq_none]
  intro m hm
  simp only [Bool.and_eq_true, beq_iff_eq, not_and]
  intro _ e
  refine h ?_
  rw [← e]
  simp [MetaMethod.signature]

theorem method_first {o : MetaObject} (hn : Named o) {name : Bytes} {m : MetaMethod} (h : IsMethod o name m) : o.method? (name ++ b!"(" ++ connectionType ++ b!")") = some m := by
  obtain ⟨before, after, e, h1, h2, h3⟩ := h
  have hid : ∀ x ∈ o.methods, Identifier x.name := hn
  have hi : Identifier name := by rw [← h1]; exact hid m (by rw [e]; simp)
  refine find_first e ?_ ?_
  · rw [beq_iff_eq, signature_iff (hid m (by rw [e]; simp)) hi]; exact ⟨h1, h2⟩
  · intro y hy
    rw [beq_eq_false_iff_ne, ne_eq, signature_iff (hid y (by rw [e]; simp [hy])) hi]
    exact h3 y hy

theorem slot_first {o : MetaObject} (hn : Named o) {name : Bytes} {m : MetaMethod} (h : IsMethod o name m) (hs : m.isSlot = true) :
    o.slot? (name ++ b!"(" ++ connectionType ++ b!")") = some m := by
  obtain ⟨before, after, e, h1, h2, h3⟩ := h
  have hi : Identifier name := by rw [← h1]; exact hn m (by rw [e]; simp)
  refine find_first e ?_ ?_
  · rw [hs, Bool.true_and, beq_iff_eq, signature_iff (hn m (by rw [e]; simp)) hi]; exact ⟨h1, h2⟩
  · intro y hy
    rw [Bool.and_eq_false_iff]
    right
    rw [beq_eq_false_iff_ne, ne_eq, signature_iff (hn y (by rw [e]; simp [hy])) hi]
    exact h3 y hy

theorem ident_head {s : Bytes} (h : Identifier s) (t : Bytes) : (s ++ t) ≠ [] ∧ (s ++ t).head? ≠ some 49 := by
  obtain ⟨h1, -, h3⟩ := h
  cases s with
  | nil => exact absurd rfl h1
  | cons b s =>
    refine ⟨by simp, ?_⟩
    simp only [List.cons_append, List.head?_cons, ne_eq, Option.some.injEq]
    rintro rfl
    exact h3 49 rfl (by decide)

/-- **C81** (partial): a route that is given an object and the name of a method that takes a request calls it; and so does one that is given its signature, as it is or in the form of the
`SLOT()` macro, if the method is a slot. What is missing is the signature of a `Q_INVOKABLE` method, for which the property is false: see `C81_violation`. -/
theorem C81_method_partial (o : MetaObject) (hn : Named o) (name : Bytes) (m : MetaMethod) (h : IsMethod o name m) :
    (∃ r, addMember (some o) name = some r ∧ r.invoke o = .called m.who) ∧
    (m.isSlot = true → (∃ r, addMember (some o) (name ++ b!"(Pillow::HttpConnection*)") = some r ∧ r.invoke o = .called m.who) ∧
      (∃ r, addMember (some o) (b!"1" ++ name ++ b!"(Pillow::HttpConnection*)") = some r ∧ r.invoke o = .called m.who)) := by
  have hi : Identifier name := by obtain ⟨b, a, e, h1, -⟩ := h; rw [← h1]; exact hn m (by rw [e]; simp)
  have hm : m.invoke = .called m.who := by
    obtain ⟨b, a, e, h1, h2, -⟩ := h
    rw [MetaMethod.invoke, h2]; rfl
  have hsig : name ++ b!"(Pillow::HttpConnection*)" = name ++ b!"(" ++ connectionType ++ b!")" := by simp [connectionType]
  refine ⟨⟨.byName name, ?_, ?_⟩, fun hs => ⟨⟨.method m, ?_, hm⟩, ⟨.method m, ?_, hm⟩⟩⟩
  · have := ident_head hi []
    rw [List.append_nil] at this
    simp only [addMember]
    rw [if_neg this.1, if_neg this.2, no_slot_name hn (ident_paren hi)]
  · simp only [MethodRoute.invoke]
    rw [method_first hn h]
    exact hm
  · have := ident_head hi b!"(Pillow::HttpConnection*)"
    simp only [addMember]
    rw [if_neg this.1, if_neg this.2, hsig, slot_first hn h hs]
  · simp only [addMember, List.append_assoc]
    rw [if_neg (by simp), if_pos (by simp)]
    rw [show (b!"1" ++ (name ++ b!"(Pillow::HttpConnection*)")).tail = name ++ b!"(Pillow::HttpConnection*)" by rfl]
    rw [hsig, slot_first hn h hs]

/-- **C81**: nothing is added for a missing object or member. -/
theorem C81_missing (object : Option MetaObject) (member : Bytes) : addMember object member = none ↔ object = none ∨ member = [] := by
  unfold addMember
  cases object with
  | none => simp
  | some o =>
    by_cases hm : member = []
    · simp [hm]
    · dsimp only
      rw [if_neg hm]
      split <;> simp [hm]

/-- C81 fails for a method that is not a slot, given by its signature: `addRoute` looks it up but forgets the result, so that it will look for a method whose name is that signature, and the requests
are never answered. (`SLOT()` cannot be used for such a method, `Q_INVOKABLE` being no slot.) -/
theorem C81_violation (o : MetaObject) (hn : Named o) (name : Bytes) (m : MetaMethod) (h : IsMethod o name m) (hs : ∀ x ∈ o.methods, x.name = name → x.isSlot = false)
    (hp : ∀ x ∈ o.methods, ∀ p ∈ x.params, 40 ∉ p) (hnorm : (let s := name ++ b!"(Pillow::HttpConnection*)(Pillow::HttpConnection*)"; o.normalize s = s)) :
    ∃ r, addMember (some o) (name ++ b!"(Pillow::HttpConnection*)") = some r ∧ r.invoke o = .nothing := by
  have hi : Identifier name := by obtain ⟨b, a, e, h1, -⟩ := h; rw [← h1]; exact hn m (by rw [e]; simp)
  have hh := ident_head hi b!"(Pillow::HttpConnection*)"
  have hsl : o.slot? (name ++ b!"(Pillow::HttpConnection*)") = none := by
    unfold MetaObject.slot?
    rw [List.find?_eq_none]
    intro x hx
    simp only [Bool.and_eq_true, beq_iff_eq, not_and]
    intro k e
    rw [hs x hx (split_paren (ident_paren (hn x hx)) (ident_paren hi) (x := List.intercalate b!"," x.params ++ b!")") (y := b!"Pillow::HttpConnection*)") (by
      simpa [MetaMethod.signature] using e)).1] at k
    cases k
  refine ⟨.byName (name ++ b!"(Pillow::HttpConnection*)"), ?_, ?_⟩
  · simp only [addMember]
    rw [if_neg hh.1, if_neg hh.2, hsl]
  · have e : name ++ b!"(Pillow::HttpConnection*)" ++ b!"(" ++ connectionType ++ b!")" = name ++ b!"(Pillow::HttpConnection*)(Pillow::HttpConnection*)" := by simp [connectionType]
    have h1 : o.method? (name ++ b!"(Pillow::HttpConnection*)(Pillow::HttpConnection*)") = none := by
      unfold MetaObject.method?
      rw [List.find?_eq_none]
      intro x hx
      rw [beq_iff_eq]
      unfold MetaMethod.signature
      intro e'
      have e'' : x.name ++ 40 :: (List.intercalate b!"," x.params ++ b!")") = name ++ 40 :: (b!"Pillow::HttpConnection*)(Pillow::HttpConnection*" ++ b!")") := by simpa using e'
      have e3 := (split_paren (ident_paren (hn x hx)) (ident_paren hi) e'').2
      have e4 : List.intercalate b!"," x.params = b!"Pillow::HttpConnection*)(Pillow::HttpConnection*" := List.append_cancel_right e3
      have h40 : 40 ∉ List.intercalate b!"," x.params := join_paren (hp x hx)
      rw [e4] at h40
      exact h40 (by decide)
    simp only [MethodRoute.invoke]
    rw [e, h1]
    dsimp only at hnorm ⊢
    rw [hnorm, h1]

/-- An object with a slot and a `Q_INVOKABLE` method. -/
def demoObject : MetaObject :=
  { methods := [⟨b!"save", [b!"Pillow::HttpConnection*"], true, 1⟩, ⟨b!"show", [b!"Pillow::HttpConnection*"], false, 2⟩, ⟨b!"show", [b!"QString", b!"int"], false, 3⟩], normalize := id }

theorem ident_of {s : Bytes} (h : (!s.isEmpty && s.all (fun b => decide ((97 ≤ b ∧ b ≤ 122) ∨ (65 ≤ b ∧ b ≤ 90) ∨ (48 ≤ b ∧ b ≤ 57) ∨ b = 95)) && !(s.head?.any fun b => decide (48 ≤ b ∧ b ≤ 57))) = true) :
    Identifier s := by
  simp only [Bool.and_eq_true, Bool.not_eq_true', List.all_eq_true, decide_eq_true_eq, Option.any_eq_false] at h
  exact ⟨by intro e; rw [e] at h; exact absurd h.1.1 (by decide), h.1.2, fun b hb => by simpa using h.2 b hb⟩

/-- The hypotheses of the theorems above can be met: the slot is called however it is given, the other method only by its name. -/
example : Named demoObject ∧ IsMethod demoObject b!"save" ⟨b!"save", [b!"Pillow::HttpConnection*"], true, 1⟩ ∧ IsMethod demoObject b!"show" ⟨b!"show", [b!"Pillow::HttpConnection*"], false, 2⟩ := by
  refine ⟨?_, ⟨[], _, rfl, rfl, rfl, by simp⟩, ⟨[_], _, rfl, rfl, rfl, by simp⟩⟩
  intro m hm
  simp only [demoObject, List.mem_cons, List.not_mem_nil, or_false] at hm
  rcases hm with rfl | rfl | rfl <;> exact ident_of (by decide)
example : (addMember (some demoObject) b!"1save(Pillow::HttpConnection*)").map (·.invoke demoObject) = some (.called 1) ∧
    (addMember (some demoObject) b!"save").map (·.invoke demoObject) = some (.called 1) ∧ (addMember (some demoObject) b!"show").map (·.invoke demoObject) = some (.called 2) ∧
    (addMember (some demoObject) b!"show(Pillow::HttpConnection*)").map (·.invoke demoObject) = some .nothing := by decide +kernel

end Pillow.Props
