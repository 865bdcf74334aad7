import Verif.Lemmas.ParserSafe
/-!
# The response parser never announces an empty piece of content
-/
namespace Pillow
variable {σ : Type} {cb : CB σ}

/-- The same callbacks, except that nothing happens for an empty piece of content. -/
def solid (cb : CB σ) : CB σ
  | .body [], p, s => (p, s)
  | c, p, s => cb c p s

theorem solid_body {b : Bytes} (h : b ≠ []) : solid cb (.body b) = cb (.body b) := by
  cases b with
  | nil => exact absurd rfl h
  | cons => rfl

theorem dataBody_solid {p : HParser} {s : σ} {m : Marks} (h : m.body ≠ some []) : dataBody cb p s m = dataBody (solid cb) p s m := by
  unfold dataBody
  split
  · rfl
  · rename_i bs e
    rw [solid_body (fun hb => h (by rw [e, hb]))]

theorem doBodyIdentity_solid {p : HParser} {s : σ} {m : Marks} {rest : Bytes} (hr : rest ≠ []) (hp : p.contentLength ≠ 0) :
    doBodyIdentity cb p s m rest = doBodyIdentity (solid cb) p s m rest := by
  have hne : (m.body.or (some [])).getD [] ++ rest.take (min p.contentLength rest.length) ≠ [] := by
    intro h
    have h := (List.append_eq_nil_iff.1 h).2
    have : rest.length ≠ 0 := fun h => hr (List.eq_nil_of_length_eq_zero h)
    have h := congrArg List.length h
    rw [List.length_take, List.length_nil] at h
    omega
  unfold doBodyIdentity
  dsimp only
  rw [solid_body hne]
  rfl

theorem switch_solid {p : HParser} {s : σ} {m : Marks} {ch : Byte} {rest : Bytes} (hr : rest ≠ []) (hg : Good 1 p) (hm : m.body ≠ some []) :
    switch cb p s m ch rest = switch (solid cb) p s m ch rest := by
  unfold switch
  split
  case h_23 hs => exact doBodyIdentity_solid hr (hg.data (Or.inr hs))
  case h_31 hs =>
    dsimp only
    split
    · rfl
    · exact dataBody_solid hm
  all_goals rfl

theorem leftover_solid {p : HParser} {s : σ} {m : Marks} (hm : m.body ≠ some []) : leftover cb p s m = leftover (solid cb) p s m := by
  unfold leftover
  obtain ⟨f, v, b⟩ := m
  cases b with
  | none => rfl
  | some b =>
    dsimp only
    rw [solid_body (fun h => hm (by rw [h]))]
    rfl

theorem adv_solid {m : Marks} {bs : Bytes} (h : bs ≠ []) : (m.adv bs).body ≠ some [] := by
  unfold Marks.adv
  dsimp only
  cases m.body with
  | none => simp
  | some b => simp [h]

theorem execLoop_solid (ht : Tame cb) : ∀ (data : Bytes) (p : HParser) (s : σ) (m : Marks) (pos : Nat), p.errno = .ok → Good 0 p → m.body ≠ some [] →
    execLoop cb p s m data pos = execLoop (solid cb) p s m data pos
  | [], p, s, m, pos, he, hg, hm => by
    rw [execLoop_nil, execLoop_nil, leftover_solid hm]
  | ch :: tl, p, s, m, pos, he, hg, hm => by
    rw [execLoop_cons, execLoop_cons]
    have hgc := counted_good hg
    have hce : (counted p).errno = .ok := (counted_facts p).2.trans he
    generalize counted p = q at hgc hce ⊢
    split
    · rfl
    · rw [← switch_solid (by simp) hgc hm]
      have hsg := switch_good ht (s := s) (m := m) (ch := ch) (tl := tl) hgc hce
      revert hsg
      cases switch cb q s m ch (ch :: tl) with
      | ret p1 s1 n1 => intro _; rfl
      | go p1 s1 m1 n1 =>
        rintro ⟨h5, h6, h7⟩
        exact execLoop_solid ht _ _ _ _ _ h6 h5 (adv_solid (by
          cases n1 with
          | zero => omega
          | succ n => simp))
termination_by data => data.length
decreasing_by simp; omega

/-- **The parser never announces an empty piece of content.** -/
theorem execute_solid (ht : Tame cb) {p : HParser} {s : σ} (he : p.errno = .ok) (hg : Good 0 p) (data : Bytes) : execute cb p s data = execute (solid cb) p s data := by
  unfold execute
  split
  · rfl
  · split
    · rfl
    · exact execLoop_solid ht _ _ _ _ _ he hg (by simp)

end Pillow
