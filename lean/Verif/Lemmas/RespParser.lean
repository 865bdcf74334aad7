import Verif.Lemmas.ParserSafe
import Verif.Spec.Parser
/-!
# `HttpResponseParser`: its callbacks, and the segmentation of the input
-/
namespace Pillow

/-- The data callbacks of `HttpResponseParser`. -/
def rF (bs : Bytes) (d : RespData) : RespData := { d.push with field := d.push.field ++ bs }
@[inherit_doc rF] def rV (bs : Bytes) (d : RespData) : RespData := { d with value := d.value ++ bs, lastWasValue := true }
@[inherit_doc rF] def rB (bs : Bytes) (d : RespData) : RespData := { d with content := d.content ++ bs }

theorem pause_ok {p : HParser} (h : p.errno = .ok) : p.pause = { p with errno := .paused } := by
  unfold HParser.pause; rw [if_pos (Or.inl h)]

theorem Good.pause {k : Nat} {p : HParser} (h : p.errno = .ok) (hg : Good k p) : Good k p.pause := by
  rw [pause_ok h]
  obtain ⟨h1, h2, h3, h4, h5, h6, h7, h8, h9⟩ := hg
  exact ⟨h1, h2, h3, h4, h5, h6, h7, h8, h9⟩

theorem respCb_tame : Tame respCb where
  tame := by
    intro c p s he
    cases c with
    | messageComplete => exact Or.inr ⟨by show p.pause.errno = _; rw [pause_ok he], fun k hg => hg.pause he⟩
    | _ => exact Or.inl rfl
  done := by
    intro p s he
    show p.pause.errno ≠ .ok
    rw [pause_ok he]; simp

theorem push_push (d : RespData) : d.push.push = d.push := by
  unfold RespData.push; split <;> simp_all

theorem push_hooks (d : RespData) : d.push.hooks = d.hooks := by
  unfold RespData.push; split <;> rfl

theorem respCb_laws : Laws respCb rF rV rB (fun s t => s.hooks = t.hooks) where
  tame := respCb_tame
  field := fun _ _ _ => rfl
  value := fun _ _ _ => rfl
  body := fun _ _ _ => rfl
  fieldApp := by
    intro a b s
    unfold rF
    have h : ({ s.push with field := s.push.field ++ a } : RespData).push = { s.push with field := s.push.field ++ a } := by
      have h2 : s.push.lastWasValue = false := by unfold RespData.push; split <;> simp_all
      unfold RespData.push at h2 ⊢
      split <;> simp_all
    rw [h]
    simp
  valueApp := by intro a b s; simp [rV]
  bodyApp := by intro a b s; simp [rB]
  bodyNil := by intro s; simp [rB]
  refl := fun _ => rfl
  symm := fun _ _ h => h.symm
  trans := fun _ _ _ h h' => h.trans h'
  relF := fun _ s => (push_hooks s).symm
  relV := fun _ _ => rfl
  relB := fun _ _ => rfl

/-- When the parser is paused, something has been consumed. -/
def ResMoves {σ : Type} : Res σ → Prop
  | .go _ _ _ n => 1 ≤ n
  | .ret p _ n => p.errno = .paused → 1 ≤ n

theorem notify_moves {σ : Type} {cb : CB σ} {c : Cb} {p : HParser} {s : σ} {m : Marks} : ResMoves (notify cb c p s m) := by
  unfold notify; dsimp only
  split
  · exact fun _ => Nat.le_refl _
  · exact Nat.le_refl _

theorem fail_moves {σ : Type} {p : HParser} {s : σ} {e : Errno} (h : e ≠ .paused) : ResMoves (fail p s e) := fun h' => absurd h' h

theorem doHeadersDone_moves {p : HParser} {s : RespData} {m : Marks} {ch : Byte} : ResMoves (doHeadersDone respCb p s m ch) := by
  unfold doHeadersDone; dsimp only
  repeat' split
  all_goals first | exact notify_moves | exact fail_moves (by simp) | exact Nat.le_refl _ | exact fun _ => Nat.le_refl _

theorem doHeadersAlmostDone_moves {p : HParser} {s : RespData} {m : Marks} {ch : Byte} (he : p.errno = .ok) :
    ResMoves (doHeadersAlmostDone respCb p s m ch) := by
  unfold doHeadersAlmostDone; dsimp only
  split
  · exact fail_moves (by simp)
  · split
    · exact notify_moves
    · rw [if_neg (by simp [respCb, he])]
      exact doHeadersDone_moves

theorem doFieldStart_moves {p : HParser} {s : RespData} {m : Marks} {ch : Byte} (he : p.errno = .ok) :
    ResMoves (doFieldStart respCb p s m ch) := by
  unfold doFieldStart; dsimp only
  split
  · exact Nat.le_refl _
  · split
    · exact doHeadersAlmostDone_moves he
    · split
      · exact fail_moves (by simp)
      · exact Nat.le_refl _

theorem doAlmostDone_moves {σ : Type} {p : HParser} {s : σ} {m : Marks} {ch : Byte} : ResMoves (doAlmostDone p s m ch) := by
  unfold doAlmostDone; dsimp only
  repeat' split
  all_goals first | exact fail_moves (by simp) | exact Nat.le_refl _

theorem dataField_moves {σ : Type} {cb : CB σ} {p : HParser} {s : σ} {m : Marks} : ResMoves (dataField cb p s m) := by
  unfold dataField; repeat' split
  all_goals first | exact Nat.le_refl _ | (dsimp only; split <;> first | exact Nat.le_refl _ | exact fun _ => Nat.le_refl _)
theorem dataValue_moves {σ : Type} {cb : CB σ} {p : HParser} {s : σ} {m : Marks} : ResMoves (dataValue cb p s m) := by
  unfold dataValue; repeat' split
  all_goals first | exact Nat.le_refl _ | (dsimp only; split <;> first | exact Nat.le_refl _ | exact fun _ => Nat.le_refl _)
theorem dataBody_moves {σ : Type} {cb : CB σ} {p : HParser} {s : σ} {m : Marks} : ResMoves (dataBody cb p s m) := by
  unfold dataBody; repeat' split
  all_goals first | exact Nat.le_refl _ | (dsimp only; split <;> first | exact Nat.le_refl _ | exact fun _ => Nat.le_refl _)

theorem doField_moves {p : HParser} {s : RespData} {m : Marks} {ch : Byte} : ResMoves (doField respCb p s m ch) := by
  unfold doField; dsimp only
  repeat' split
  all_goals first | exact fail_moves (by simp) | exact dataField_moves | exact Nat.le_refl _

theorem doValueStart_moves {p : HParser} {s : RespData} {m : Marks} {ch : Byte} : ResMoves (doValueStart respCb p s m ch) := by
  unfold doValueStart; dsimp only
  repeat' split
  all_goals first | exact fail_moves (by simp) | exact dataValue_moves | exact Nat.le_refl _

theorem doValue_moves {p : HParser} {s : RespData} {m : Marks} {ch : Byte} (he : p.errno = .ok) : ResMoves (doValue respCb p s m ch) := by
  unfold doValue; dsimp only
  split
  · exact dataValue_moves
  · split
    · split
      · exact doAlmostDone_moves
      · rw [assert_ok he, if_neg (by simp [respCb, he])]
        exact doAlmostDone_moves
    · split
      · exact fail_moves (by simp)
      · exact Nat.le_refl _

theorem switch_moves {p : HParser} {s : RespData} {m : Marks} {ch : Byte} {tl : Bytes} (hg : Good 1 p) (he : p.errno = .ok) :
    ResMoves (switch respCb p s m ch (ch :: tl)) := by
  have hgood := switch_good respCb_tame (s := s) (m := m) (ch := ch) (tl := tl) hg he
  have hgo : ∀ r : Res RespData, ResGood 0 r → (∀ p s n, r = .ret p s n → p.errno = .paused → 1 ≤ n) → ResMoves r := by
    intro r h1 h2
    cases r with
    | go p s m n => exact h1.2.2
    | ret p s n => exact h2 p s n rfl
  by_cases h3 : p.state = .bodyIdentity
  · refine hgo _ hgood ?_
    have h0 := hg.data (Or.inr h3)
    rw [switch_identity h3]
    unfold doBodyIdentity
    dsimp only
    generalize hp1 : HParser.assert p _ = p1
    have e1 : p1.errno = .ok := by rw [← hp1]; unfold HParser.assert; split <;> exact he
    intro q t n hq _
    split at hq
    · rw [assert_ok e1, if_neg (by simp [respCb, e1])] at hq
      split at hq
      · injection hq with _ _ h
        simp only [List.length_cons] at h
        omega
      · cases hq
    · cases hq
  by_cases h4 : p.state = .chunkData
  · refine hgo _ hgood ?_
    rw [switch_chunk h4]
    unfold doChunkData
    intro q t n hq; cases hq
  by_cases h5 : p.state = .bodyEof
  · refine hgo _ hgood ?_
    rw [switch_eof h5]
    intro q t n hq; cases hq
  unfold switch
  split <;> first
    | exact doFieldStart_moves he | exact doField_moves | exact doValueStart_moves | exact doValue_moves he | exact doAlmostDone_moves
    | exact doHeadersAlmostDone_moves he | exact doHeadersDone_moves | (rename_i h; exact absurd h h3) | (rename_i h; exact absurd h h4)
    | (rename_i h; exact absurd h h5) | exact notify_moves
    | ((try dsimp only); repeat' split
       all_goals first | exact doFieldStart_moves he | exact notify_moves | exact dataBody_moves | exact Nat.le_refl _ | (refine fail_moves ?_; simp; done))

theorem switch_le {p : HParser} {s : RespData} {m : Marks} {ch : Byte} {tl : Bytes} (he : p.errno = .ok) :
    match switch respCb p s m ch (ch :: tl) with | .go _ _ _ n => n ≤ tl.length + 1 | .ret _ _ n => n ≤ tl.length + 1 := by
  by_cases h3 : p.state = .bodyIdentity
  · rw [switch_identity h3]
    unfold doBodyIdentity
    dsimp only
    generalize hp1 : HParser.assert p _ = p1
    have e1 : p1.errno = .ok := by rw [← hp1]; unfold HParser.assert; split <;> exact he
    by_cases hz : p1.contentLength - min p.contentLength (ch :: tl).length = 0
    · rw [if_pos hz, assert_ok e1, if_neg (by simp [respCb, e1])]
      split
      · rename_i h
        split at h
        · cases h
        · cases h; simp only [List.length_cons]; omega
      · rename_i h
        split at h
        · cases h; simp only [List.length_cons]; omega
        · cases h
    · rw [if_neg hz]; simp only [List.length_cons]; omega
  by_cases h4 : p.state = .chunkData
  · rw [switch_chunk h4]; unfold doChunkData; simp only [List.length_cons]; omega
  by_cases h5 : p.state = .bodyEof
  · rw [switch_eof h5]; simp
  have h := switch_one (cb := respCb) (s := s) (m := m) (ch := ch) (rest := ch :: tl) h3 h4 h5
  revert h
  cases switch respCb p s m ch (ch :: tl) with
  | go p s m n => intro h; have h : n = 1 := h; simp; omega
  | ret p s n => intro h; have h : n ≤ 1 := h; simp; omega

theorem execLoop_moves : ∀ (data : Bytes) (p : HParser) (s : RespData) (m : Marks) (pos : Nat), MOk p m → p.errno = .ok → Good 0 p →
    (execLoop respCb p s m data pos).2.2 ≤ pos + data.length ∧
    ((execLoop respCb p s m data pos).1.errno = .ok → (execLoop respCb p s m data pos).2.2 = pos + data.length) ∧
    ((execLoop respCb p s m data pos).1.errno = .paused → pos < (execLoop respCb p s m data pos).2.2)
  | [], p, s, m, pos, hm, he, hg => by
    rw [execLoop_nil, leftover_eq respCb_laws hm he]
    exact ⟨Nat.le_refl _, fun _ => rfl, fun h => by rw [he] at h; cases h⟩
  | ch :: tl, p, s, m, pos, hm, he, hg => by
    rw [execLoop_cons]
    have hc := counted_good hg
    have hce : (counted p).errno = .ok := (counted_facts p).2.trans he
    have hcs := hm.counted
    generalize counted p = q at hc hce hcs ⊢
    split
    · exact ⟨by simp, fun h => by simp at h, fun h => by simp at h⟩
    · have hsm := switch_safe respCb_tame (s := s) (ch := ch) (rest := ch :: tl) hcs hce hc
      have hsg := switch_good respCb_tame (s := s) (m := m) (ch := ch) (tl := tl) hc hce
      have hsv := switch_moves (s := s) (m := m) (ch := ch) (tl := tl) hc hce
      have hsl := switch_le (s := s) (m := m) (ch := ch) (tl := tl) hce
      revert hsm hsg hsv hsl
      cases switch respCb q s m ch (ch :: tl) with
      | ret p1 s1 n1 =>
        rintro _ ⟨h1, h2, h3⟩ h4 h5
        have h5 : n1 ≤ tl.length + 1 := h5
        refine ⟨by simp only [List.length_cons]; omega, fun h => absurd h h1, fun h => ?_⟩
        have := h4 h
        dsimp only; omega
      | go p1 s1 m1 n1 =>
        rintro h3 ⟨h5, h6, h7⟩ _ h8
        have h8 : n1 ≤ tl.length + 1 := h8
        have ih := execLoop_moves (tl.drop (n1 - 1)) p1 s1 (m1.adv ((ch :: tl).take n1)) (pos + n1) (adv_ok h3 _) h6 h5
        dsimp only
        have hl : pos + n1 + (tl.drop (n1 - 1)).length = pos + (ch :: tl).length := by
          simp only [List.length_drop, List.length_cons]; omega
        rw [hl] at ih
        exact ⟨ih.1, ih.2.1, fun h => Nat.lt_of_le_of_lt (by omega) (ih.2.2 h)⟩
termination_by data => data.length
decreasing_by all_goals (simp; try omega)

/-- `http_parser_execute` on data, for a parser without error. -/
theorem execute_moves {p : HParser} (he : p.errno = .ok) (hg : Good 0 p) (s : RespData) {data : Bytes} (hd : data ≠ []) :
    (execute respCb p s data).2.2 ≤ data.length ∧
    ((execute respCb p s data).1.errno = .ok → (execute respCb p s data).2.2 = data.length) ∧
    ((execute respCb p s data).1.errno = .paused → 0 < (execute respCb p s data).2.2) := by
  obtain ⟨c, t, rfl⟩ := List.exists_cons_of_ne_nil hd
  have h := execLoop_moves (c :: t) p s (fresh p) 0 (fresh_ok p) he hg
  simp only [Nat.zero_add] at h
  have : execute respCb p s (c :: t) = execLoop respCb p s (fresh p) (c :: t) 0 := by
    unfold execute fresh
    rw [if_neg (by simp [he])]
  rw [this]
  exact h

end Pillow
namespace Pillow
open Spec (deliver deliverAll Used)

/-- The parser between calls is not paused. -/
theorem inject_not_paused (r : RespParser) (data : Bytes) (h : r.p.errno ≠ .paused) : (r.inject data).1.p.errno ≠ .paused := by
  unfold RespParser.inject
  dsimp only
  split
  · simp
  · rename_i h; exact h

theorem unpause_safe {p : HParser} (h : Safe p) : Safe (if p.errno = .paused then { p with errno := .ok } else p) := by
  split
  · rename_i hp
    obtain ⟨h1, h2, h3, h4, h5, h6, h7, h8, h9⟩ := h.2 (Or.inr hp)
    exact ⟨h1, fun _ => ⟨h1, h2, h3, h4, h5, h6, h7, h8, h9⟩⟩
  · exact h

theorem inject_safe {r : RespParser} (h : Safe r.p) (data : Bytes) : Safe (r.inject data).1.p :=
  unpause_safe (execute_safe respCb_tame h r.d data)

theorem init_safe {p : HParser} (h : p.bad = false) : Safe p.init := by
  refine ⟨h, fun _ => Good.plain h (Nat.zero_le _) ?_⟩
  simp [HParser.init]

theorem used_safe {r : RespParser} (h : Used r) : Safe r.p ∧ r.p.errno ≠ .paused := by
  induction h with
  | new => exact ⟨⟨rfl, fun _ => Good.plain rfl (Nat.zero_le _) (by simp)⟩, by simp⟩
  | inject data _ ih => exact ⟨inject_safe ih.1 data, inject_not_paused _ _ ih.2⟩
  | injectEof _ ih => exact ⟨inject_safe ih.1 [], inject_not_paused _ _ ih.2⟩
  | clear _ ih => exact ⟨init_safe ih.1.1, by simp [RespParser.clear, HParser.init]⟩

/-- Two parsers that are the same, except for data delivered before an error. -/
structure RAgree (x y : RespParser) : Prop where
  parser : x.p = y.p
  hooks : x.d.hooks = y.d.hooks
  same : x.hasError = false → x = y

theorem RAgree.refl (x : RespParser) : RAgree x x := ⟨rfl, rfl, fun _ => rfl⟩

theorem RAgree.trans {x y z : RespParser} (h : RAgree x y) (h' : RAgree y z) : RAgree x z :=
  ⟨h.parser.trans h'.parser, h.hooks.trans h'.hooks, fun he => by
    have := h.same he
    subst this
    exact h'.same he⟩

theorem hasError_iff {r : RespParser} : r.hasError = false ↔ (r.p.errno = .ok ∨ r.p.errno = .paused) := by
  unfold RespParser.hasError
  cases r.p.errno <;> simp

theorem inject_err {r : RespParser} (h : r.p.errno ≠ .ok) (hp : r.p.errno ≠ .paused) (data : Bytes) : r.inject data = (r, 0) := by
  unfold RespParser.inject execute
  rw [if_pos h]
  dsimp only
  rw [if_neg hp]

theorem deliver_nil (r : RespParser) : deliver r [] = r := by
  unfold deliver; simp

theorem deliver_err {r : RespParser} (h : r.p.errno ≠ .ok) (hp : r.p.errno ≠ .paused) (data : Bytes) : deliver r data = r := by
  unfold deliver
  rw [inject_err h hp]
  simp

theorem deliver_cons {r : RespParser} {data : Bytes} (hd : data ≠ []) (hn : 0 < (r.inject data).2) (he : (r.inject data).1.hasError = false) :
    deliver r data = deliver (r.inject data).1 (data.drop (r.inject data).2) := by
  conv => lhs; unfold deliver
  rw [dif_neg]
  rw [he]
  simp only [not_or]
  exact ⟨hd, by omega, by simp⟩

theorem deliver_stop {r : RespParser} {data : Bytes} (hd : data ≠ []) (he : (r.inject data).1.hasError = true) :
    deliver r data = (r.inject data).1 := by
  unfold deliver
  rw [dif_pos (Or.inr (Or.inr he)), if_neg hd]

theorem deliver_append : ∀ (a b : Bytes) (r : RespParser), Safe r.p → r.p.errno ≠ .paused →
    RAgree (deliver r (a ++ b)) (deliver (deliver r a) b) := by
  intro a
  induction h : a.length using Nat.strongRecOn generalizing a with
  | _ k ih =>
    intro b r hs hp
    by_cases he : r.p.errno = .ok
    · by_cases ha : a = []
      · subst ha; rw [deliver_nil]; exact RAgree.refl _
      by_cases hb : b = []
      · subst hb; rw [List.append_nil, deliver_nil]; exact RAgree.refl _
      have hg := hs.2 (Or.inl he)
      have hx := execute_append respCb_laws hg r.d ha hb
      have hm := execute_moves he hg r.d ha
      have hmw := execute_moves he hg r.d (data := a ++ b) (by simp [ha])
      have hi := inject_safe hs a
      have hab : a ++ b ≠ [] := by simp [ha]
      have hinj : ∀ data, r.inject data = (⟨if (execute respCb r.p r.d data).1.errno = .paused then { (execute respCb r.p r.d data).1 with errno := .ok } else (execute respCb r.p r.d data).1, (execute respCb r.p r.d data).2.1⟩, (execute respCb r.p r.d data).2.2) := fun _ => rfl
      by_cases h1 : (execute respCb r.p r.d a).1.errno = .ok
      · -- everything of the first piece is consumed
        rw [if_pos h1] at hx
        have hn := hm.2.1 h1
        have hr1 : (r.inject a).1 = ⟨(execute respCb r.p r.d a).1, (execute respCb r.p r.d a).2.1⟩ := by
          rw [hinj]; dsimp only; rw [if_neg (by rw [h1]; simp)]
        have hda : deliver r a = (r.inject a).1 := by
          rw [deliver_cons ha, show (r.inject a).2 = a.length from hn, List.drop_length, deliver_nil]
          · rw [show (r.inject a).2 = a.length from hn]; exact List.length_pos_iff.2 ha
          · rw [hr1, hasError_iff]; exact Or.inl h1
        rw [hda]
        rw [hr1] at hi
        rw [hr1]
        generalize hq : (execute respCb r.p r.d a) = x at *
        dsimp only at hx hi
        have hg1 := hi.2 (Or.inl h1)
        have hm1 := execute_moves h1 hg1 x.2.1 hb
        have hinj1 : (⟨x.1, x.2.1⟩ : RespParser).inject b = (⟨if (execute respCb x.1 x.2.1 b).1.errno = .paused then { (execute respCb x.1 x.2.1 b).1 with errno := .ok } else (execute respCb x.1 x.2.1 b).1, (execute respCb x.1 x.2.1 b).2.1⟩, (execute respCb x.1 x.2.1 b).2.2) := rfl
        by_cases h2 : (execute respCb x.1 x.2.1 b).1.errno = .ok ∨ (execute respCb x.1 x.2.1 b).1.errno = .paused
        · have hst := hx.state (by rw [hx.parser]; exact h2)
          have e1 : (r.inject (a ++ b)).1 = ((⟨x.1, x.2.1⟩ : RespParser).inject b).1 := by
            rw [hinj, hinj1]
            dsimp only
            rw [hx.parser, hst]
          have e2 : (r.inject (a ++ b)).2 = a.length + ((⟨x.1, x.2.1⟩ : RespParser).inject b).2 := by
            rw [hinj, hinj1]
            dsimp only
            rw [hx.consumed, hn]
          have hok : ((⟨x.1, x.2.1⟩ : RespParser).inject b).1.hasError = false := by
            rw [hasError_iff, hinj1]
            dsimp only
            rcases h2 with h2 | h2
            · rw [if_neg (by rw [h2]; simp)]; exact Or.inl h2
            · rw [if_pos h2]; exact Or.inl rfl
          have hpos : 0 < ((⟨x.1, x.2.1⟩ : RespParser).inject b).2 := by
            rw [hinj1]
            dsimp only
            rcases h2 with h2 | h2
            · rw [hm1.2.1 h2]; exact List.length_pos_iff.2 hb
            · exact hm1.2.2 h2
          rw [deliver_cons hab (by rw [e2]; omega) (by rw [e1]; exact hok), deliver_cons hb hpos hok, e1, e2, List.drop_append, List.drop_of_length_le (by omega),
            show a.length + ((⟨x.1, x.2.1⟩ : RespParser).inject b).2 - a.length = ((⟨x.1, x.2.1⟩ : RespParser).inject b).2 by omega]
          exact RAgree.refl _
        · have e1 : (r.inject (a ++ b)).1.p = ((⟨x.1, x.2.1⟩ : RespParser).inject b).1.p := by
            rw [hinj, hinj1]
            dsimp only
            rw [hx.parser]
          have hbad : ((⟨x.1, x.2.1⟩ : RespParser).inject b).1.hasError = true := by
            rw [← Bool.not_eq_false, hasError_iff, hinj1]
            dsimp only
            rw [if_neg (fun h => h2 (Or.inr h))]
            exact h2
          have hbad' : (r.inject (a ++ b)).1.hasError = true := by
            unfold RespParser.hasError at hbad ⊢
            rw [e1]; exact hbad
          rw [deliver_stop hab hbad', deliver_stop hb hbad]
          exact ⟨e1, hx.rel, fun h => by rw [hbad'] at h; cases h⟩
      · rw [if_neg h1] at hx
        by_cases h2 : (execute respCb r.p r.d a).1.errno = .paused
        · have hst := hx.state (by rw [hx.parser]; exact Or.inr h2)
          have heq : r.inject (a ++ b) = r.inject a := by
            rw [hinj, hinj, hx.parser, hst, hx.consumed]
          have hok : (r.inject a).1.hasError = false := by
            rw [hasError_iff, hinj]
            dsimp only
            rw [if_pos h2]; exact Or.inl rfl
          have hpos : 0 < (r.inject a).2 := hm.2.2 h2
          have hle : (r.inject a).2 ≤ a.length := hm.1
          rw [deliver_cons hab (by rw [heq]; exact hpos) (by rw [heq]; exact hok), heq, deliver_cons ha hpos hok, List.drop_append_of_le_length hle]
          refine ih (a.drop (r.inject a).2).length ?_ _ rfl b _ hi (inject_not_paused _ _ hp)
          simp only [List.length_drop]; omega
        · have hbad : (r.inject a).1.hasError = true := by
            rw [← Bool.not_eq_false, hasError_iff, hinj]
            dsimp only
            rw [if_neg h2]
            simp [h1, h2]
          have e1 : (r.inject (a ++ b)).1.p = (r.inject a).1.p := by rw [hinj, hinj]; dsimp only; rw [hx.parser]
          have hbad' : (r.inject (a ++ b)).1.hasError = true := by
            unfold RespParser.hasError at hbad ⊢
            rw [e1]; exact hbad
          rw [deliver_stop hab hbad', deliver_stop ha hbad]
          have hne := hbad
          rw [← Bool.not_eq_false, hasError_iff, not_or] at hne
          rw [deliver_err hne.1 hne.2]
          exact ⟨e1, hx.rel, fun h => by rw [hbad'] at h; cases h⟩
    · rw [deliver_err he hp, deliver_err he hp, deliver_err he hp]
      exact RAgree.refl _

theorem deliver_safe : ∀ (data : Bytes) (r : RespParser), Safe r.p → r.p.errno ≠ .paused → Safe (deliver r data).p ∧ (deliver r data).p.errno ≠ .paused := by
  intro data
  induction h : data.length using Nat.strongRecOn generalizing data with
  | _ k ih =>
    intro r hs hp
    unfold deliver
    split
    · split
      · exact ⟨hs, hp⟩
      · exact ⟨inject_safe hs _, inject_not_paused _ _ hp⟩
    · rename_i hn
      simp only [not_or] at hn
      refine ih (data.drop (r.inject data).2).length ?_ _ rfl _ (inject_safe hs _) (inject_not_paused _ _ hp)
      have : 0 < data.length := List.length_pos_iff.2 hn.1
      simp only [List.length_drop]; omega

theorem deliverAll_flatten : ∀ (segs : List Bytes) (r : RespParser), Safe r.p → r.p.errno ≠ .paused →
    RAgree (deliver r segs.flatten) (deliverAll r segs)
  | [], r, _, _ => by rw [List.flatten_nil, deliver_nil]; exact RAgree.refl _
  | a :: segs, r, hs, hp => by
    obtain ⟨h1, h2⟩ := deliver_safe a r hs hp
    exact (deliver_append a segs.flatten r hs hp).trans (deliverAll_flatten segs (deliver r a) h1 h2)

end Pillow
