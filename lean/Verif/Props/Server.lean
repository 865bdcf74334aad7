import Verif.Spec.Server
import Verif.Lemmas.LogStep
import Verif.Lemmas.Serve
import Verif.Lemmas.Run
import Verif.Lemmas.RunsFacts
set_option linter.unusedSimpArgs false
set_option linter.unusedVariables false
/-!
# C34: the server's pool of connections
-/
namespace Pillow.Props
open Pillow Pillow.Spec

/-! ### when a connection serves a client -/

theorem serving_snoc (log : List Ev) (e : Ev) :
    Serving (log ++ [e]) ↔ e = .init ∨ (Serving log ∧ ∀ f u, e ≠ .closed f u) := by
  constructor
  · rintro ⟨a, b, h, hb⟩
    rcases List.eq_nil_or_concat b with rfl | ⟨b', e', rfl⟩
    · have := List.append_inj' h rfl
      left; simpa using this.2
    · simp only [List.concat_eq_append] at h hb
      rw [← List.cons_append, ← List.append_assoc] at h
      have := List.append_inj' h rfl
      simp only [List.cons.injEq, and_true] at this
      obtain ⟨h1, rfl⟩ := this
      right
      exact ⟨⟨a, b', h1, fun x hx => hb x (by simp [hx])⟩, (hb e (by simp)).2⟩
  · rintro (rfl | ⟨⟨a, b, rfl, hb⟩, he⟩)
    · exact ⟨log, [], rfl, by intro e he; cases he⟩
    · by_cases hi : e = .init
      · subst hi; exact ⟨a ++ .init :: b, [], rfl, by intro e he; cases he⟩
      · refine ⟨a, b ++ [e], by simp, ?_⟩
        intro x hx
        rcases List.mem_append.1 hx with hx | hx
        · exact hb x hx
        · cases List.mem_singleton.1 hx; exact ⟨hi, he⟩

theorem serving_nil : ¬ Serving [] := by rintro ⟨a, b, h, -⟩; simp at h

theorem serving_iff {log : List Ev} {ph : Phase} (h : Runs false log ph) : Serving log ↔ ph ≠ .off ∧ ph ≠ .closed := by
  induction h with
  | start => simp [serving_nil]
  | step log p p' e h hn ih =>
    rw [serving_snoc, ih]
    cases hn with
    | init _ _ => simp
    | recv _ bs => simp
    | interim => simp
    | ready i r _ => simp
    | error code => simp
    | head r h _ => simp; split <;> simp
    | body r h n bs => simp; split <;> simp
    | chunk => simp
    | lastChunk => simp
    | completed r h => simp [Phase.after]; split <;> simp
    | completedOpen r h n => simp [Phase.after]; split <;> simp
    | forced _ u => simp
    | drained => simp
    | again hlo => exact absurd hlo (by decide)

theorem not_off {lo : Bool} {log : List Ev} {ph : Phase} (h : Runs lo log ph) (hi : .init ∈ log) : ph ≠ .off := by
  induction h with
  | start => cases hi
  | step log p p' e h hn ih =>
    cases hn with
    | recv _ bs => exact ih (by simpa using hi)
    | head r h _ => split <;> simp
    | body r h n bs => split <;> simp
    | completed r h => simp [Phase.after]; split <;> simp
    | completedOpen r h n => simp [Phase.after]; split <;> simp
    | _ => simp

/-- What a step of a connection in use by the server does to its history. -/
theorem conn_step {s s' : Conf} {l : Label} (hr : Reach Gentle s) (hi : .init ∈ s.c.log) (hg : Gentle s l) (hl : l ≠ .init)
    (hs : s.step l = some s') : .init ∈ s'.c.log ∧ (emitsClosed s s' = true → Serving s.c.log ∧ ¬ Serving s'.c.log) ∧
      (emitsClosed s s' = false → (Serving s'.c.log ↔ Serving s.c.log)) := by
  obtain ⟨ph, hruns⟩ := inv_runs hr
  obtain ⟨ph', hruns'⟩ := inv_runs (Reach.step _ _ _ hr hg hs)
  rcases step_one hl hs with e | ⟨ev, hev, e⟩
  · refine ⟨by rw [e]; exact hi, ?_, ?_⟩
    · simp [emitsClosed, e]
    · intro _; rw [e]
  · have hin : Ev.init ∈ s'.c.log := by rw [e]; simp [hi]
    refine ⟨hin, ?_, ?_⟩
    · intro hc
      simp only [emitsClosed, e, List.length_append, List.length_singleton, List.getLast?_append, List.getLast?_singleton,
        Option.some_or, Bool.and_eq_true] at hc
      have hclosed : ∃ f u, ev = .closed f u := by
        cases ev <;> simp at hc
        exact ⟨_, _, rfl⟩
      obtain ⟨f, u, rfl⟩ := hclosed
      refine ⟨(serving_iff hruns).2 ⟨not_off hruns hi, ?_⟩, by rw [e, serving_snoc]; simp⟩
      rintro rfl
      rw [e] at hruns'
      obtain ⟨q, h1, h2⟩ := runs_split hruns'
      cases runs_det hruns h1
      cases h2 with
      | cons _ _ _ _ _ hn _ =>
        cases hn with
        | forced _ _ h _ => exact h rfl
        | again h => cases h
    · intro hc
      rw [e, serving_snoc]
      have : ∀ f u, ev ≠ .closed f u := by
        rintro f u rfl
        simp [emitsClosed, e] at hc
      simp [hev, this]

/-! ### the pool -/

structure Shrunk (v v' : Server) : Prop where
  conns : v'.conns = v.conns
  members : ∀ i, (i ∈ v'.reserved ∨ i ∈ v'.deleted) ↔ (i ∈ v.reserved ∨ i ∈ v.deleted)
  sub : ∀ i, i ∈ v'.reserved → i ∈ v.reserved
  keeps : ∀ i, i ∈ v.deleted → i ∈ v'.deleted
  nodup : v.reserved.Nodup → v'.reserved.Nodup
  disjoint : v.reserved.Nodup → (∀ i ∈ v.reserved, i ∉ v.deleted) → ∀ i ∈ v'.reserved, i ∉ v'.deleted
  shorter : v'.reserved.length ≤ v.reserved.length

theorem split_last {l : List Nat} {j : Nat} (h : l.getLast? = some j) : l = l.dropLast ++ [j] := by
  obtain ⟨hne, e⟩ := List.getLast?_eq_some_iff.1 h
  rw [e]; simp

theorem Shrunk.refl (v : Server) : Shrunk v v := ⟨rfl, fun _ => .rfl, fun _ h => h, fun _ h => h, id, fun _ h => h, Nat.le_refl _⟩

theorem shrunk_last (v : Server) : Shrunk v v.deleteLast := by
  unfold Server.deleteLast
  split
  · exact .refl v
  · rename_i j hj
    have hr : v.reserved = v.reserved.dropLast ++ [j] := by
      exact split_last hj
    generalize v.reserved.dropLast = r at hr
    refine ⟨rfl, ?_, ?_, ?_, ?_, ?_, ?_⟩
    · intro i; dsimp only; rw [hr]; simp only [List.mem_append, List.mem_cons, List.not_mem_nil, or_false]
      constructor
      · rintro (h | h | h)
        · exact .inl (.inl h)
        · exact .inl (.inr h)
        · exact .inr h
      · rintro ((h | h) | h)
        · exact .inl h
        · exact .inr (.inl h)
        · exact .inr (.inr h)
    · intro i h; dsimp only at h; rw [hr]; simp [h]
    · intro i h; dsimp only; simp [h]
    · intro h; rw [hr] at h; exact (List.nodup_append.1 h).1
    · intro hn hd i hi
      rw [hr] at hn hd
      simp only [List.mem_cons, not_or]
      refine ⟨?_, hd i (by simp [hi])⟩
      rintro rfl
      exact (List.nodup_append.1 hn).2.2 i hi i (by simp) rfl
    · rw [hr]; simp

theorem Shrunk.trans {a b c : Server} (h : Shrunk a b) (k : Shrunk b c) : Shrunk a c :=
  ⟨k.conns.trans h.conns, fun i => (k.members i).trans (h.members i), fun i hi => h.sub i (k.sub i hi), fun i hi => k.keeps i (h.keeps i hi),
   fun hn => k.nodup (h.nodup hn), fun hn hd => k.disjoint (h.nodup hn) (h.disjoint hn hd), Nat.le_trans k.shorter h.shorter⟩

theorem shrink_spec : ∀ (n : Nat) (v : Server), v.reserved.length < n → Shrunk v (v.shrink n) ∧ (v.shrink n).reserved.length < maximumReserveCount
  | 0, v, h => absurd h (Nat.not_lt_zero _)
  | n + 1, v, h => by
    simp only [Server.shrink]
    split
    · rename_i hge
      have hpos : 0 < v.reserved.length := by simp only [maximumReserveCount] at hge; omega
      have hlen : v.deleteLast.reserved.length < v.reserved.length := by
        unfold Server.deleteLast
        split
        · rename_i hn; rw [List.getLast?_eq_none_iff] at hn; rw [hn] at hpos; simp at hpos
        · simp; omega
      obtain ⟨h1, h2⟩ := shrink_spec n v.deleteLast (by omega)
      exact ⟨(shrunk_last v).trans h1, h2⟩
    · rename_i hge
      exact ⟨.refl v, by omega⟩

structure SvInv (v : Server) : Prop where
  reach : ∀ (i : Nat) s, v.conns[i]? = some s → Reach Gentle s ∧ (s.c.log = [] ∨ .init ∈ s.c.log)
  nodup : v.reserved.Nodup
  small : v.reserved.length ≤ maximumReserveCount
  disjoint : ∀ i ∈ v.reserved, i ∉ v.deleted
  valid : ∀ i, i ∈ v.reserved ∨ i ∈ v.deleted → i < v.conns.length
  idle : ∀ (i : Nat) s, v.conns[i]? = some s → ((i ∈ v.reserved ∨ i ∈ v.deleted) ↔ ¬ Serving s.c.log)

theorem svinv_start : SvInv .create := by
  refine ⟨?_, List.nodup_range, by simp [Server.create], ?_, ?_, ?_⟩
  · intro i s h
    simp only [Server.create] at h
    have := List.eq_of_mem_replicate (List.mem_of_getElem? h)
    subst this
    exact ⟨.start, .inl rfl⟩
  · intro i _; simp [Server.create]
  · intro i h; simpa [Server.create] using h
  · intro i s h
    have hlt : i < maximumReserveCount := by
      have := (List.getElem?_eq_some_iff.1 h).1
      simpa [Server.create] using this
    have := List.eq_of_mem_replicate (List.mem_of_getElem? h)
    subst this
    simp [Server.create, hlt, serving_nil]

/-- A connection that serves nobody, and runs no code, can be initialized. -/
theorem can_init {s : Conf} (hr : Reach Gentle s) (hns : ¬ Serving s.c.log) (hst : s.stack = []) (hf : s.c.fault = none) : Gentle s .init := by
  refine ⟨fun _ => ⟨hst, ?_⟩, fun e => by cases e⟩
  rcases inv_reach (lo := false) hr with hc | ⟨h, -⟩
  · obtain ⟨ph, h1, h2⟩ := hc.data
    rw [serving_iff h1] at hns
    rw [hst] at h2
    have h2' : Settled true s.c ph := h2
    unfold Settled at h2'
    have hph : ph = .off ∨ ph = .closed := by
      cases ph <;> simp at hns ⊢
    cases hst : s.c.st <;> rw [hst] at h2' <;> dsimp only at h2'
    · simp
    · rw [h2'.1] at hph; simp at hph
    · obtain ⟨_, _, _, _, k, -⟩ := h2'
      rw [k.phase] at hph; simp at hph
    · rw [h2'.1] at hph; simp at hph
    · obtain ⟨_, _, k, -⟩ := h2'; rw [k] at hph; simp at hph
    · rw [h2'.1] at hph; split at hph <;> simp at hph
    · rw [h2'.1] at hph; simp at hph
    · simp
  · rw [hf] at h; cases h

theorem svinv_init {v : Server} {i : Nat} {s s' : Conf} (h : SvInv v) (hi : v.conns[i]? = some s) (hlog : ¬ Serving s.c.log) (hn : i ∉ v.deleted)
    (hst : s.stack = []) (hs : s.step .init = some s') :
    SvInv { v with reserved := v.reserved.filter (· ≠ i), conns := v.conns.set i s' } := by
  have hf : s.c.fault = none := by
    cases hfa : s.c.fault with
    | none => rfl
    | some f => simp [Conf.step, hfa] at hs
  obtain ⟨h1, h2, h3, h4, h5, h6⟩ := h
  have hlt : i < v.conns.length := (List.getElem?_eq_some_iff.1 hi).1
  have e := init_log hs
  refine ⟨?_, h2.sublist List.filter_sublist, Nat.le_trans (List.length_filter_le _ _) h3, ?_, ?_, ?_⟩
  · intro j t hj
    dsimp only at hj
    rw [List.getElem?_set] at hj
    split at hj
    · rename_i hij
      subst hij
      cases hj
      exact ⟨.step _ _ _ (h1 _ _ hi).1 (can_init (h1 _ _ hi).1 hlog hst hf) hs, .inr (by rw [e]; simp)⟩
    · exact h1 _ _ hj
  · intro j hj
    exact h4 j (List.mem_filter.1 hj).1
  · intro j hj
    dsimp only
    rw [List.length_set]
    rcases hj with hj | hj
    · exact h5 j (.inl (List.mem_filter.1 hj).1)
    · exact h5 j (.inr hj)
  · intro j t hj
    dsimp only at hj ⊢
    rw [List.getElem?_set] at hj
    split at hj
    · rename_i hij
      subst hij
      cases hj
      rw [e, serving_snoc]
      simp [hn]
    · rename_i hij
      rw [← h6 _ _ hj]
      simp [List.mem_filter, Ne.symm hij]

theorem svinv_step {v v' : Server} {l : SLabel} (h : SvInv v) (hp : Polite v l) (hs : v.step l = some v') : SvInv v' := by
  cases l with
  | accept =>
    simp only [Server.step] at hs
    split at hs
    · rename_i hall
      rw [List.all_eq_true] at hall
      unfold Server.take at hs
      cases hr : v.reserved.getLast? with
      | none =>
        rw [hr] at hs
        have hempty : v.reserved = [] := List.getLast?_eq_none_iff.1 hr
        simp only [List.getElem?_append_right (Nat.le_refl _), Nat.sub_self, List.getElem?_cons_zero] at hs
        cases hstep : Conf.step {} .init with
        | none => rw [hstep] at hs; cases hs
        | some s' =>
          rw [hstep] at hs
          simp only [Option.map_some, Option.some.injEq] at hs
          obtain ⟨h1, h2, h3, h4, h5, h6⟩ := h
          have hdel : v.conns.length ∉ v.deleted := fun hd => Nat.lt_irrefl _ (h5 _ (.inr hd))
          have hv : SvInv { v with conns := v.conns ++ [{}], reserved := [v.conns.length] } := by
            refine ⟨?_, by simp, by simp [maximumReserveCount], ?_, ?_, ?_⟩
            · intro j t hj
              dsimp only at hj
              rw [List.getElem?_append] at hj
              split at hj
              · exact h1 _ _ hj
              · have : t = {} := by
                  have := List.mem_of_getElem? hj
                  simpa using this
                subst this
                exact ⟨.start, .inl rfl⟩
            · intro j hj
              have : j = v.conns.length := by simpa using hj
              subst this; exact hdel
            · intro j hj
              dsimp only
              rw [List.length_append]
              rcases hj with hj | hj
              · have : j = v.conns.length := by simpa using hj
                subst this; simp
              · exact Nat.lt_succ_of_lt (h5 j (.inr hj))
            · intro j t hj
              dsimp only at hj ⊢
              rw [List.getElem?_append] at hj
              split at hj
              · rename_i hlt
                rw [← h6 _ _ hj, hempty]
                simp [Nat.ne_of_lt hlt]
              · have hj' := hj
                have : t = {} := by
                  have := List.mem_of_getElem? hj
                  simpa using this
                subst this
                have : j = v.conns.length := by
                  have := (List.getElem?_eq_some_iff.1 hj').1
                  simp at this; omega
                subst this
                simp [serving_nil]
          have := svinv_init (i := v.conns.length) (s := {}) hv (by simp [List.getElem?_append_right]) serving_nil hdel rfl hstep
          rw [← hs]
          simpa [hempty] using this
      | some i =>
        rw [hr] at hs
        dsimp only at hs
        have hsplit : v.reserved = v.reserved.dropLast ++ [i] := by
          exact split_last hr
        have hmem : i ∈ v.reserved := by rw [hsplit]; simp
        have hfil : v.reserved.filter (· ≠ i) = v.reserved.dropLast := by
          have hnd := h.nodup
          conv => lhs; rw [hsplit]
          rw [hsplit] at hnd
          rw [List.filter_append]
          simp only [ne_eq, decide_not, List.filter_cons, decide_true, Bool.not_true, Bool.false_eq_true, if_false, List.filter_nil, List.append_nil]
          rw [List.filter_eq_self]
          intro a ha
          have := (List.nodup_append.1 hnd).2.2 a ha i (by simp)
          simpa using this
        cases hci : v.conns[i]? with
        | none => rw [hci] at hs; cases hs
        | some s =>
          rw [hci] at hs
          dsimp only at hs
          cases hstep : s.step .init with
          | none => rw [hstep] at hs; cases hs
          | some s' =>
            rw [hstep] at hs
            simp only [Option.map_some, Option.some.injEq] at hs
            have hst : s.stack = [] := by simpa using hall s (List.mem_of_getElem? hci)
            have := svinv_init h hci ((h.idle _ _ hci).1 (.inl hmem)) (h.disjoint _ hmem) hst hstep
            rw [hfil] at this
            rw [← hs]; exact this
    · cases hs
  | conn i l =>
    simp only [Server.step] at hs
    split at hs
    · cases hs
    · rename_i hl
      have hl1 : l ≠ .init := fun e => hl (.inl e)
      have hdel : i ∉ v.deleted := fun e => hl (.inr e)
      cases hci : v.conns[i]? with
      | none => rw [hci] at hs; cases hs
      | some s =>
        rw [hci] at hs
        dsimp only at hs
        obtain ⟨hne, hg⟩ := hp s hci
        cases hstep : s.step l with
        | none => rw [hstep] at hs; cases hs
        | some s' =>
          rw [hstep] at hs
          simp only [Option.map_some, Option.some.injEq] at hs
          obtain ⟨h1, h2, h3, h4, h5, h6⟩ := h
          obtain ⟨hr, hin⟩ := h1 _ _ hci
          have hin : Ev.init ∈ s.c.log := by rcases hin with h | h; exact absurd h hne; exact h
          obtain ⟨k1, k2, k3⟩ := conn_step hr hin hg hl1 hstep
          have hlt : i < v.conns.length := (List.getElem?_eq_some_iff.1 hci).1
          have reach' : ∀ (j : Nat) t, (v.conns.set i s')[j]? = some t → Reach Gentle t ∧ (t.c.log = [] ∨ .init ∈ t.c.log) := by
            intro j t hj
            rw [List.getElem?_set] at hj
            split at hj
            · rename_i hij
              subst hij
              cases hj
              exact ⟨.step _ _ _ hr hg hstep, .inr k1⟩
            · exact h1 _ _ hj
          cases hc : emitsClosed s s' with
          | false =>
            rw [hc] at hs
            simp only [Bool.false_eq_true, if_false] at hs
            rw [← hs]
            refine ⟨reach', h2, h3, h4, ?_, ?_⟩
            · intro j hj; dsimp only; rw [List.length_set]; exact h5 j hj
            · intro j t hj
              dsimp only at hj ⊢
              rw [List.getElem?_set] at hj
              split at hj
              · rename_i hij
                subst hij
                cases hj
                rw [k3 hc]; exact h6 _ _ hci
              · exact h6 _ _ hj
          | true =>
            rw [hc] at hs
            simp only [if_true] at hs
            obtain ⟨k4, k5⟩ := k2 hc
            have hnr : i ∉ v.reserved := fun hm => (h6 _ _ hci).1 (.inl hm) k4
            generalize hw : ({ v with conns := v.conns.set i s' } : Server) = w at hs
            have w1 : w.conns = v.conns.set i s' := by rw [← hw]
            have w2 : w.reserved = v.reserved := by rw [← hw]
            have w3 : w.deleted = v.deleted := by rw [← hw]
            obtain ⟨sh, hlen⟩ := shrink_spec (w.reserved.length + 1) w (Nat.lt_succ_self _)
            have hput : v' = { w.shrink (w.reserved.length + 1) with reserved := (w.shrink (w.reserved.length + 1)).reserved ++ [i] } := by
              rw [← hs]; rfl
            generalize w.shrink (w.reserved.length + 1) = x at sh hlen hput
            have x1 : x.conns = v.conns.set i s' := sh.conns.trans w1
            have x2 : ∀ j, (j ∈ x.reserved ∨ j ∈ x.deleted) ↔ (j ∈ v.reserved ∨ j ∈ v.deleted) := by
              intro j; rw [sh.members j, w2, w3]
            have hix : i ∉ x.reserved ∧ i ∉ x.deleted := by
              have := mt (x2 i).1 (by simp [hnr, hdel])
              exact ⟨fun h => this (.inl h), fun h => this (.inr h)⟩
            rw [hput]
            refine ⟨?_, ?_, ?_, ?_, ?_, ?_⟩
            · dsimp only; rw [x1]; exact reach'
            · dsimp only
              rw [List.nodup_append]
              refine ⟨sh.nodup (by rw [w2]; exact h2), by simp, ?_⟩
              intro a ha b hb
              have : b = i := by simpa using hb
              subst this
              rintro rfl
              exact hix.1 ha
            · dsimp only; rw [List.length_append]; simp; omega
            · intro j hj
              dsimp only at hj ⊢
              rcases List.mem_append.1 hj with hj | hj
              · exact sh.disjoint (by rw [w2]; exact h2) (by rw [w2, w3]; exact h4) j hj
              · have : j = i := by simpa using hj
                subst this; exact hix.2
            · intro j hj
              dsimp only at hj ⊢
              rw [x1, List.length_set]
              by_cases hji : j = i
              · subst hji; exact hlt
              · refine h5 j ((x2 j).1 ?_)
                rcases hj with hj | hj
                · rcases List.mem_append.1 hj with hj | hj
                  · exact .inl hj
                  · exact absurd (by simpa using hj) hji
                · exact .inr hj
            · intro j t hj
              dsimp only at hj ⊢
              rw [x1, List.getElem?_set] at hj
              split at hj
              · rename_i hij
                subst hij
                cases hj
                simp [k5]
              · rename_i hij
                rw [← h6 _ _ hj, ← x2 j]
                simp [Ne.symm hij]

theorem svinv {v : Server} (h : Served v) : SvInv v := by
  induction h with
  | start => exact svinv_start
  | step v v' l _ hp hs ih => exact svinv_step ih hp hs

/-! ### C34 -/

/-- C34: at every moment the idle connections are pairwise distinct, at most 25, not deleted, and serve nobody; and every existing
connection that serves nobody is in the pool. -/
theorem C34_pool (v : Server) (h : Served v) :
    v.reserved.Nodup ∧ v.reserved.length ≤ 25 ∧
    ∀ (i : Nat) (s : Conf), v.conns[i]? = some s →
      (Serving s.c.log → i ∉ v.reserved ∧ i ∉ v.deleted) ∧ (¬ Serving s.c.log → i ∉ v.deleted → i ∈ v.reserved) := by
  obtain ⟨h1, h2, h3, h4, h5, h6⟩ := svinv h
  refine ⟨h2, h3, fun i s hs => ⟨fun hse => ?_, fun hn hd => ?_⟩⟩
  · have := mt (h6 i s hs).1 (by simpa using hse)
    exact ⟨fun k => this (.inl k), fun k => this (.inr k)⟩
  · rcases (h6 i s hs).2 hn with k | k
    · exact k
    · exact absurd k hd

theorem accept_takes {v v' : Server} (hinv : SvInv v) (hs : v.step .accept = some v') :
    ∃ (i : Nat) (s' : Conf), i = v.take.1 ∧ v'.conns[i]? = some s' ∧ i ∉ v'.deleted ∧ i ∉ v'.reserved ∧ Serving s'.c.log ∧ (∀ j, j ≠ i → v'.conns[j]? = v.conns[j]?) ∧
      (v.conns[i]? = none ∨ ∃ s, v.conns[i]? = some s ∧ i ∈ v.reserved ∧ ¬ Serving s.c.log ∧ s'.c.log = s.c.log ++ [.init]) := by
  have hinv' : SvInv v' := svinv_step (l := .accept) hinv trivial hs
  simp only [Server.step] at hs
  split at hs
  · unfold Server.take at hs
    cases hr : v.reserved.getLast? with
    | none =>
      rw [hr] at hs
      simp only [List.getElem?_append_right (Nat.le_refl _), Nat.sub_self, List.getElem?_cons_zero] at hs
      cases hstep : Conf.step {} .init with
      | none => rw [hstep] at hs; cases hs
      | some s' =>
        rw [hstep] at hs
        simp only [Option.map_some, Option.some.injEq] at hs
        have hget : v'.conns[v.conns.length]? = some s' := by rw [← hs]; simp [List.getElem?_set]
        have hserv : Serving s'.c.log := by rw [init_log hstep]; exact (serving_snoc _ _).2 (.inl rfl)
        have hno := mt (hinv'.idle _ _ hget).1 (by simpa using hserv)
        refine ⟨v.conns.length, s', (by unfold Server.take; rw [hr]), hget, fun k => hno (.inr k), fun k => hno (.inl k), hserv, ?_, .inl (by simp)⟩
        intro j hj
        rw [← hs]
        simp only [List.getElem?_set, if_neg (Ne.symm hj), List.getElem?_append]
        split
        · rfl
        · rw [List.getElem?_eq_none (by simp; omega), List.getElem?_eq_none (by omega)]
    | some i =>
      rw [hr] at hs
      dsimp only at hs
      have hmem : i ∈ v.reserved := List.mem_of_getLast? hr
      cases hci : v.conns[i]? with
      | none => rw [hci] at hs; cases hs
      | some s =>
        rw [hci] at hs
        dsimp only at hs
        cases hstep : s.step .init with
        | none => rw [hstep] at hs; cases hs
        | some s' =>
          rw [hstep] at hs
          simp only [Option.map_some, Option.some.injEq] at hs
          have hlt : i < v.conns.length := (List.getElem?_eq_some_iff.1 hci).1
          have hget : v'.conns[i]? = some s' := by rw [← hs]; simp [List.getElem?_set, hlt]
          have hserv : Serving s'.c.log := by rw [init_log hstep]; exact (serving_snoc _ _).2 (.inl rfl)
          have hno := mt (hinv'.idle _ _ hget).1 (by simpa using hserv)
          refine ⟨i, s', (by unfold Server.take; rw [hr]), hget, fun k => hno (.inr k), fun k => hno (.inl k), hserv, ?_,   .inr ⟨s, hci, hmem, (hinv.idle _ _ hci).1 (.inl hmem), init_log hstep⟩⟩
          intro j hj
          rw [← hs]
          simp [List.getElem?_set, Ne.symm hj]
  · cases hs

/-- C34: a new client gets a connection object that is not deleted and that is not serving another client: it was never used, or has emitted
`closed` for its last client; the other connections are untouched. -/
theorem C34_exclusive (v v' : Server) (h : Served v) (hs : v.step .accept = some v') :
    ∃ (i : Nat) (s' : Conf), v'.conns[i]? = some s' ∧ i ∉ v'.deleted ∧ i ∉ v'.reserved ∧ Serving s'.c.log ∧ (∀ j, j ≠ i → v'.conns[j]? = v.conns[j]?) ∧
      (v.conns[i]? = none ∨ ∃ s, v.conns[i]? = some s ∧ i ∈ v.reserved ∧ ¬ Serving s.c.log ∧ s'.c.log = s.c.log ++ [.init]) := by
  obtain ⟨i, s', -, k⟩ := accept_takes (svinv h) hs
  exact ⟨i, s', k⟩

/-! #### Deleting a connection that is running -/

theorem shrink_misuse : ∀ (n : Nat) (v : Server), v.misuse = false → (∀ j ∈ v.reserved, v.running j = false) → (v.shrink n).misuse = false
  | 0, v, h, _ => h
  | n + 1, v, h, hr => by
    simp only [Server.shrink]
    split
    · refine shrink_misuse n _ ?_ ?_
      · unfold Server.deleteLast
        split
        · exact h
        · rename_i j hj
          simp [h, hr j (List.mem_of_getLast? hj)]
      · intro j hj
        have hsub := (shrunk_last v).sub j hj
        have hc : v.deleteLast.conns = v.conns := (shrunk_last v).conns
        simp only [Server.running, hc]
        exact hr j hsub
    · exact h

/-- No handler of `closed` closes another connection: when a connection emits `closed` no other idle connection is still running. -/
def Calm (v : Server) : SLabel → Prop
  | .accept => True
  | .conn i l => ∀ s s', v.conns[i]? = some s → s.step l = some s' → emitsClosed s s' = true → ∀ j ∈ v.reserved, v.running j = false

inductive ServedCalmly : Server → Prop where
  | start : ServedCalmly .create
  | step (v v' : Server) (l : SLabel) : ServedCalmly v → Polite v l → Calm v l → v.step l = some v' → ServedCalmly v'

theorem calm_served {v : Server} (h : ServedCalmly v) : Served v := by
  induction h with
  | start => exact .start
  | step v v' l _ hp _ hs ih => exact .step v v' l ih hp hs

/-- C34: if no handler of `closed` closes another connection, the server never deletes an object that is executing. -/
theorem C34_no_delete_running_partial (v : Server) (h : ServedCalmly v) : v.misuse = false := by
  induction h with
  | start => rfl
  | step v v' l hv hp hc hs ih =>
    cases l with
    | accept =>
      simp only [Server.step] at hs
      split at hs
      · have hm : v.take.2.misuse = v.misuse := by unfold Server.take; split <;> rfl
        generalize v.take = t at hs hm
        split at hs
        · cases hs
        · rename_i s _
          cases hstep : s.step .init with
          | none => rw [hstep] at hs; cases hs
          | some s' => rw [hstep] at hs; simp only [Option.map_some, Option.some.injEq] at hs; rw [← hs]; exact hm.trans ih
      · cases hs
    | conn i l =>
      simp only [Server.step] at hs
      split at hs
      · cases hs
      · rename_i hl
        cases hci : v.conns[i]? with
        | none => rw [hci] at hs; cases hs
        | some s =>
          rw [hci] at hs
          dsimp only at hs
          cases hstep : s.step l with
          | none => rw [hstep] at hs; cases hs
          | some s' =>
            rw [hstep] at hs
            simp only [Option.map_some, Option.some.injEq] at hs
            cases hem : emitsClosed s s' with
            | false => rw [hem] at hs; simp only [Bool.false_eq_true, if_false] at hs; rw [← hs]; exact ih
            | true =>
              rw [hem] at hs
              simp only [if_true] at hs
              rw [← hs]
              obtain ⟨h1, h2, h3, h4, h5, h6⟩ := svinv (calm_served hv)
              have hne := (hp s hci).1
              have hin : Ev.init ∈ s.c.log := by rcases (h1 _ _ hci).2 with h | h; exact absurd h hne; exact h
              have hserv := ((conn_step (h1 _ _ hci).1 hin (hp s hci).2 (fun e => hl (.inl e)) hstep).2.1 hem).1
              have hnr : i ∉ v.reserved := fun hm => (h6 _ _ hci).1 (.inl hm) hserv
              refine shrink_misuse _ _ ih ?_
              intro j hj
              have hji : i ≠ j := by rintro rfl; exact hnr hj
              have := hc s s' hci hstep hem j hj
              simpa [Server.running, List.getElem?_set, hji] using this

/-! #### Concrete histories -/

instance (v : Server) (i : Nat) (l : Label) : Decidable (Polite v (.conn i l)) :=
  match h : v.conns[i]? with
  | none => isTrue (fun s hs => by rw [h] at hs; cases hs)
  | some s => if k : s.c.log ≠ [] ∧ Gentle s l then isTrue (fun t ht => by rw [h] at ht; cases ht; exact k)
      else isFalse (fun p => k (p s h))

instance : (v : Server) → (l : SLabel) → Decidable (Polite v l)
  | _, .accept => isTrue trivial
  | v, .conn i l => inferInstanceAs (Decidable (Polite v (.conn i l)))

def serverRun (v : Server) : List SLabel → Option Server
  | [] => some v
  | l :: ls => if Polite v l then (v.step l).bind (serverRun · ls) else none

theorem served_run : ∀ (ls : List SLabel) (v w : Server), Served v → serverRun v ls = some w → Served w
  | [], v, w, h, e => by simp [serverRun] at e; subst e; exact h
  | l :: ls, v, w, h, e => by
    simp only [serverRun] at e
    split at e
    · rename_i hp
      cases hs : v.step l with
      | none => rw [hs] at e; cases e
      | some v' => rw [hs] at e; exact served_run ls v' w (.step v v' l h hp hs) e
    · cases e

/-- `close()` from the event loop, up to its end. -/
def closing (i : Nat) : List SLabel := [.conn i (.call .close), .conn i (.tau 0), .conn i .ret, .conn i (.tau 0)]

/-- 26 clients connect and 24 leave; then one more leaves (object 1), and the handler of its `closed` closes the last connection. -/
def nestedClose : List SLabel :=
  List.replicate 26 .accept ++ ((List.range 24).map fun i => closing (i + 2)).flatten ++
  [.conn 1 (.call .close), .conn 1 (.tau 0)] ++ [.conn 0 (.call .close), .conn 0 (.tau 0)]

/-- The server deletes a connection object in the middle of its own `closed` signal, if a handler of that signal closes another connection
while the pool is full: object 1 is deleted while its `transitionToClosed` has not returned. -/
theorem C34_violation : ∃ v, Served v ∧ v.misuse = true ∧ 1 ∈ v.deleted ∧ ∃ s, v.conns[1]? = some s ∧ s.stack = [.env, .closedRest] := by
  have h : (match serverRun .create nestedClose with
    | none => false
    | some v => v.misuse && v.deleted.contains 1 && (match v.conns[1]? with | some s => s.stack == [.env, .closedRest] | none => false)) = true := by
    decide +kernel
  split at h
  · cases h
  · rename_i v hv
    simp only [Bool.and_eq_true, List.contains_iff_mem] at h
    refine ⟨v, served_run _ _ _ .start hv, h.1.1, h.1.2, ?_⟩
    have h2 := h.2
    split at h2
    · rename_i s hs; exact ⟨s, hs, by simpa using h2⟩
    · cases h2

/-- Not everything is idle: after 30 clients and 10 departures 20 connections serve, 10 are in the pool, and the next client gets a used one. -/
example : ∃ v, Served v ∧ v.conns.length = 30 ∧ v.reserved = [0, 1, 2, 3, 4, 5, 6, 7, 8, 9] ∧ (v.step .accept).isSome = true := by
  have h : (match serverRun .create (List.replicate 30 .accept ++ ((List.range 10).map closing).flatten) with
    | none => false
    | some v => v.conns.length == 30 && v.reserved == [0, 1, 2, 3, 4, 5, 6, 7, 8, 9] && (v.step .accept).isSome) = true := by decide +kernel
  split at h
  · cases h
  · rename_i v hv
    simp only [Bool.and_eq_true, beq_iff_eq] at h
    exact ⟨v, served_run _ _ _ .start hv, h.1.1, h.1.2, h.2⟩

def calmHere (v : Server) : SLabel → Bool
  | .accept => true
  | .conn i l => match v.conns[i]? with
    | none => true
    | some s => match s.step l with
      | none => true
      | some s' => !emitsClosed s s' || v.reserved.all fun j => !v.running j

def calmRun (v : Server) : List SLabel → Option Server
  | [] => some v
  | l :: ls => if Polite v l ∧ calmHere v l then (v.step l).bind (calmRun · ls) else none

theorem served_calm : ∀ (ls : List SLabel) (v w : Server), ServedCalmly v → calmRun v ls = some w → ServedCalmly w
  | [], v, w, h, e => by simp [calmRun] at e; subst e; exact h
  | l :: ls, v, w, h, e => by
    simp only [calmRun] at e
    split at e
    · rename_i hp
      cases hs : v.step l with
      | none => rw [hs] at e; cases e
      | some v' =>
        rw [hs] at e
        refine served_calm ls v' w (.step v v' l h hp.1 ?_ hs) e
        cases l with
        | accept => trivial
        | conn i l =>
          intro s s' h1 h2 h3 j hj
          have := hp.2
          simp only [calmHere, h1, h2, h3, Bool.not_true, Bool.false_or, List.all_eq_true] at this
          simpa using this j hj
    · cases e

/-- A calm history: 28 clients come, all leave one after the other (which deletes three connection objects), one comes again. -/
example : ∃ v, ServedCalmly v ∧ v.reserved.length = 24 ∧ v.deleted.length = 3 := by
  have h : (match calmRun .create (List.replicate 28 .accept ++ ((List.range 28).map closing).flatten ++ [.accept]) with
    | none => false
    | some v => v.reserved.length == 24 && v.deleted.length == 3) = true := by decide +kernel
  split at h
  · cases h
  · rename_i v hv
    simp only [Bool.and_eq_true, beq_iff_eq] at h
    exact ⟨v, served_calm _ _ _ .start hv, h.1, h.2⟩

end Pillow.Props
