import Verif.Lemmas.ClientFresh
import Verif.Lemmas.ParserStop
import Verif.Spec.Redirect
/-!
# What the client shows between responses, and where requests come from
-/
namespace Pillow
open Spec

/-! ## Records -/

theorem snoc_inj {l k : List CEv} {a b : CEv} (h : l ++ [a] = k ++ [b]) : l = k ∧ a = b := by
  have := List.append_inj' h rfl
  exact ⟨this.1, by simpa using this.2⟩

theorem snoc_ne {l : List CEv} {a : CEv} (h : l ++ [a] = []) : False := by simp at h

/-- A record says one thing. -/
theorem Spec.Current.unique {l k : List CEv} {x y : Option (ClientRequest × Option View)} (h : Current l x) (h' : Current k y) (e : l = k) : x = y := by
  induction h generalizing k y with
  | nil => cases h' <;> first | rfl | exact (snoc_ne e.symm).elim
  | accepted r _ ih =>
    cases h' with
    | nil => exact (snoc_ne e).elim
    | accepted r' _ => obtain ⟨-, e2⟩ := snoc_inj e; cases e2; rfl
    | other e' h1 _ _ _ => obtain ⟨-, e2⟩ := snoc_inj e; exact absurd e2.symm (h1 r)
    | finished | consumed | early | never => obtain ⟨-, e2⟩ := snoc_inj e; cases e2
  | finished x st hs ct _ ih =>
    cases h' with
    | nil => exact (snoc_ne e).elim
    | finished x' st' hs' ct' hc => obtain ⟨e1, e2⟩ := snoc_inj e; cases e2; have := ih hc e1; cases this; rfl
    | other e' _ h2 _ _ => obtain ⟨-, e2⟩ := snoc_inj e; exact absurd e2.symm (h2 x st hs ct)
    | accepted | consumed | early | never => obtain ⟨-, e2⟩ := snoc_inj e; cases e2
  | consumed _ ih =>
    cases h' with
    | nil => exact (snoc_ne e).elim
    | consumed hc => obtain ⟨e1, e2⟩ := snoc_inj e; have := ih hc e1; cases this; rfl
    | early ct hc => obtain ⟨e1, e2⟩ := snoc_inj e; have := ih hc e1; cases this
    | never hc => obtain ⟨e1, e2⟩ := snoc_inj e; have := ih hc e1; cases this
    | other e' _ _ h3 _ => obtain ⟨-, e2⟩ := snoc_inj e; exact absurd e2.symm (h3 _)
    | accepted | finished => obtain ⟨-, e2⟩ := snoc_inj e; cases e2
  | early ct _ ih =>
    cases h' with
    | nil => exact (snoc_ne e).elim
    | consumed hc => obtain ⟨e1, e2⟩ := snoc_inj e; have := ih hc e1; cases this
    | early ct hc => obtain ⟨e1, e2⟩ := snoc_inj e; exact ih hc e1
    | never hc => obtain ⟨e1, e2⟩ := snoc_inj e; have := ih hc e1; cases this
    | other e' _ _ h3 _ => obtain ⟨-, e2⟩ := snoc_inj e; exact absurd e2.symm (h3 _)
    | accepted | finished => obtain ⟨-, e2⟩ := snoc_inj e; cases e2
  | never _ ih =>
    cases h' with
    | nil => exact (snoc_ne e).elim
    | consumed hc => obtain ⟨e1, e2⟩ := snoc_inj e; have := ih hc e1; cases this
    | early ct hc => obtain ⟨e1, e2⟩ := snoc_inj e; have := ih hc e1; cases this
    | never hc => rfl
    | other e' _ _ h3 _ => obtain ⟨-, e2⟩ := snoc_inj e; exact absurd e2.symm (h3 _)
    | accepted | finished => obtain ⟨-, e2⟩ := snoc_inj e; cases e2
  | other e' h1 h2 h3 _ ih =>
    cases h' with
    | nil => exact (snoc_ne e).elim
    | other _ _ _ _ hc => exact ih hc (snoc_inj e).1
    | accepted r => exact absurd (snoc_inj e).2 (h1 r)
    | finished x st hs ct => exact absurd (snoc_inj e).2 (h2 x st hs ct)
    | consumed | early | never => exact absurd (snoc_inj e).2 (h3 _)

theorem Spec.Current.none_or {l : List CEv} {x : Option (ClientRequest × Option View)} (h : Current l x) : (x = none → ∀ r, .accepted r ∉ l) ∧ (x ≠ none → ∃ r, .accepted r ∈ l) := by
  induction h with
  | nil => exact ⟨fun _ r hr => absurd hr (by simp), fun h => absurd rfl h⟩
  | accepted r _ _ => exact ⟨(by rintro ⟨⟩), fun _ => ⟨r, by simp⟩⟩
  | finished _ _ _ _ _ ih => exact ⟨(by rintro ⟨⟩), fun _ => (ih.2 (by simp)).imp fun r hr => by simp [hr]⟩
  | consumed _ ih => exact ⟨(by rintro ⟨⟩), fun _ => (ih.2 (by simp)).imp fun r hr => by simp [hr]⟩
  | early _ _ ih => exact ⟨(by rintro ⟨⟩), fun _ => (ih.2 (by simp)).imp fun r hr => by simp [hr]⟩
  | never _ ih => exact ⟨fun _ r hr => ih.1 rfl r (by simpa using hr), fun h => absurd rfl h⟩
  | other e e1 _ _ _ ih =>
    refine ⟨fun hx r hr => ?_, fun hx => (ih.2 hx).imp fun r hr => by simp [hr]⟩
    rcases List.mem_append.1 hr with hr | hr
    · exact ih.1 hx r hr
    · exact e1 r (List.mem_singleton.1 hr).symm

theorem sameCI_location (n : Bytes) : asciiEqualsCILower n b!"location" = true ↔ SameCI n b!"location" := asciiEqualsCILower_iff _ _ (by decide)

theorem location_iff (hs : Headers) (v : Bytes) : Location hs v ↔ v = ((hs.find? fun h => asciiEqualsCILower h.name b!"location").map (·.value)).getD [] := by
  induction hs with
  | nil =>
    constructor
    · rintro (⟨a, h, b, e, -⟩ | ⟨-, e⟩)
      · simp at e
      · exact e
    · intro e; exact Or.inr ⟨by simp, e⟩
  | cons x hs ih =>
    by_cases hx : asciiEqualsCILower x.name b!"location" = true
    · rw [List.find?_cons_of_pos (p := fun h : Header => asciiEqualsCILower h.name b!"location") hx]
      have hx' := (sameCI_location _).1 hx
      constructor
      · rintro (⟨a, h, b, e, e1, e2, e3⟩ | ⟨e, -⟩)
        · cases a with
          | nil => simp at e; rw [e3, ← e.1]; rfl
          | cons y a => simp at e; exact absurd (e.1 ▸ hx') (e1 y (by simp))
        · exact absurd hx' (e x (by simp))
      · intro e; exact Or.inl ⟨[], x, hs, rfl, by simp, hx', e⟩
    · rw [List.find?_cons_of_neg (p := fun h : Header => asciiEqualsCILower h.name b!"location") hx, ← ih]
      have hx' : ¬ SameCI x.name b!"location" := fun h => hx ((sameCI_location _).2 h)
      constructor
      · rintro (⟨a, h, b, e, e1, e2, e3⟩ | ⟨e, e'⟩)
        · cases a with
          | nil => simp at e; exact absurd (e.1 ▸ e2) hx'
          | cons y a =>
            simp at e
            exact Or.inl ⟨a, h, b, e.2, fun z hz => e1 z (by simp [hz]), e2, e3⟩
        · exact Or.inr ⟨fun z hz => e z (by simp [hz]), e'⟩
      · rintro (⟨a, h, b, e, e1, e2, e3⟩ | ⟨e, e'⟩)
        · refine Or.inl ⟨x :: a, h, b, by rw [e]; rfl, ?_, e2, e3⟩
          intro z hz
          rcases List.mem_cons.1 hz with rfl | hz
          · exact hx'
          · exact e1 z hz
        · refine Or.inr ⟨?_, e'⟩
          intro z hz
          rcases List.mem_cons.1 hz with rfl | hz
          · exact hx'
          · exact e z hz

/-- What the client shows. -/
def Client.view (c : Client) : View := ⟨c.p.status, c.d.headers, c.d.content⟩

theorem follows_iff (env : ClientEnv) (c : Client) (r' : ClientRequest) :
    Follows env c.request c.view r' ↔ c.redirected = true ∧ r' = { c.request with url := env.parseUrl c.redirectionLocation } := by
  have hr : Redirects c.view.status ↔ c.redirected = true := by
    unfold Redirects Client.redirected Client.view
    simp
  unfold Follows
  rw [hr]
  constructor
  · rintro ⟨h1, loc, h2, h3⟩
    refine ⟨h1, ?_⟩
    rw [h3, show c.redirectionLocation = loc from ((location_iff _ _).1 h2).symm]
  · rintro ⟨h1, h2⟩
    exact ⟨h1, _, (location_iff _ _).2 rfl, h2⟩

theorem follows_view {env : ClientEnv} {r r' : ClientRequest} {v w : View} (h1 : v.status = w.status) (h2 : v.headers = w.headers) (h : Follows env r v r') : Follows env r w r' := by
  unfold Follows at h ⊢
  rwa [← h1, ← h2]

/-- Requests have an origin, and redirections are followed. -/
structure Just (env : ClientEnv) (Ask : ClientRequest → Prop) (log : List CEv) : Prop where
  accepted : ∀ l₁ r l₂, log = l₁ ++ .accepted r :: l₂ → Ask r ∨ ∃ q v, Current l₁ (some (q, some v)) ∧ Follows env q v r
  deferred : ∀ l₁ r l₂, log = l₁ ++ .deferred r :: l₂ → Ask r ∨ ∃ q v, Current l₁ (some (q, some v)) ∧ Follows env q v r
  follow : ∀ l₁ l₂ q v r, log = l₁ ++ .followRedirection :: l₂ → Current l₁ (some (q, some v)) → Follows env q v r → ∃ l₃, l₂ = .accepted r :: l₃ ∨ l₂ = .deferred r :: l₃

theorem split_snoc {l l₁ l₂ : List CEv} {e x : CEv} (h : l ++ [e] = l₁ ++ x :: l₂) : (l₂ = [] ∧ l = l₁ ∧ e = x) ∨ ∃ l₃, l₂ = l₃ ++ [e] ∧ l = l₁ ++ x :: l₃ := by
  rcases List.eq_nil_or_concat l₂ with rfl | ⟨l₃, z, rfl⟩
  · exact Or.inl ⟨rfl, snoc_inj h⟩
  · have h' : l ++ [e] = (l₁ ++ x :: l₃) ++ [z] := by rw [h]; simp
    obtain ⟨h1, h2⟩ := snoc_inj h'
    exact Or.inr ⟨l₃, by rw [h2, List.concat_eq_append], h1⟩

section
variable {env : ClientEnv} {Ask : ClientRequest → Prop}

theorem Just.nil : Just env Ask [] := ⟨fun _ _ _ h => by simp at h, fun _ _ _ h => by simp at h, fun _ _ _ _ _ h => by simp at h⟩

/-- The event at the end is justified. -/
theorem Just.snoc {l : List CEv} {e : CEv} (h : Just env Ask l) (ha : ∀ r, e = .accepted r ∨ e = .deferred r → Ask r ∨ ∃ q v, Current l (some (q, some v)) ∧ Follows env q v r)
    (hf : e = .followRedirection → ∀ q v r, Current l (some (q, some v)) → ¬ Follows env q v r) : Just env Ask (l ++ [e]) := by
  refine ⟨fun l1 r l2 he => ?_, fun l1 r l2 he => ?_, fun l1 l2 q v r he hc hw => ?_⟩
  · rcases split_snoc he with ⟨-, h1, h2⟩ | ⟨l3, -, h1⟩
    · rw [← h1]; exact ha r (Or.inl h2)
    · exact h.accepted l1 r l3 h1
  · rcases split_snoc he with ⟨-, h1, h2⟩ | ⟨l3, -, h1⟩
    · rw [← h1]; exact ha r (Or.inr h2)
    · exact h.deferred l1 r l3 h1
  · rcases split_snoc he with ⟨-, h1, h2⟩ | ⟨l3, h0, h1⟩
    · rw [← h1] at hc; exact absurd hw (hf h2 q v r hc)
    · obtain ⟨l4, h4⟩ := h.follow l1 l3 q v r h1 hc hw
      refine ⟨l4 ++ [e], ?_⟩
      rw [h0]
      rcases h4 with h4 | h4
      · exact Or.inl (by rw [h4]; rfl)
      · exact Or.inr (by rw [h4]; rfl)

theorem Just.plain {l : List CEv} {e : CEv} (h : Just env Ask l) (h1 : ∀ r, e ≠ .accepted r) (h2 : ∀ r, e ≠ .deferred r) (h3 : e ≠ .followRedirection) : Just env Ask (l ++ [e]) :=
  h.snoc (fun r hr => hr.elim (fun e => absurd e (h1 r)) (fun e => absurd e (h2 r))) fun e => absurd e h3

/-- A redirection is followed. -/
theorem Just.both {l : List CEv} {e : CEv} {q : ClientRequest} {v : View} {r : ClientRequest} (h : Just env Ask l) (hc : Current l (some (q, some v))) (hw : Follows env q v r)
    (hu : ∀ r', Follows env q v r' → r' = r) (he : e = .accepted r ∨ e = .deferred r) : Just env Ask (l ++ [.followRedirection] ++ [e]) := by
  have hc' : Current (l ++ [.followRedirection]) (some (q, some v)) := .other _ (by simp) (by simp) (by simp) hc
  have hor : ∀ r', e = .accepted r' ∨ e = .deferred r' → r' = r := by
    intro r' h'
    rcases he with rfl | rfl <;> rcases h' with h' | h' <;> cases h' <;> rfl
  have hne : ∀ x, (∃ r, x = .accepted r ∨ x = .deferred r) → ∀ l1 l2, l ++ [.followRedirection] ++ [e] = l1 ++ x :: l2 → (x = e ∧ l1 = l ++ [.followRedirection]) ∨ ∃ l3, l = l1 ++ x :: l3 := by
    rintro x ⟨r', hx⟩ l1 l2 h'
    rcases split_snoc h' with ⟨-, h1, h2⟩ | ⟨l3, -, h1⟩
    · exact Or.inl ⟨h2.symm, h1.symm⟩
    · rcases split_snoc h1 with ⟨-, -, h3⟩ | ⟨l4, -, h3⟩
      · rcases hx with rfl | rfl <;> cases h3
      · exact Or.inr ⟨l4, h3⟩
  refine ⟨fun l1 r' l2 h' => ?_, fun l1 r' l2 h' => ?_, fun l1 l2 q' v' r' h' hc1 hw1 => ?_⟩
  · rcases hne _ ⟨r', Or.inl rfl⟩ l1 l2 h' with ⟨h1, h2⟩ | ⟨l3, h1⟩
    · rw [hor r' (Or.inl h1.symm), h2]; exact Or.inr ⟨q, v, hc', hw⟩
    · exact h.accepted l1 r' l3 h1
  · rcases hne _ ⟨r', Or.inr rfl⟩ l1 l2 h' with ⟨h1, h2⟩ | ⟨l3, h1⟩
    · rw [hor r' (Or.inr h1.symm), h2]; exact Or.inr ⟨q, v, hc', hw⟩
    · exact h.deferred l1 r' l3 h1
  · rcases split_snoc h' with ⟨-, -, h2⟩ | ⟨l3, h0, h1⟩
    · rcases he with rfl | rfl <;> cases h2
    · rcases split_snoc h1 with ⟨h2, h3, -⟩ | ⟨l4, h2, h3⟩
      · rw [← h3] at hc1
        have := hc1.unique hc rfl
        cases this
        have := hu r' hw1
        subst this
        rw [h0, h2]
        refine ⟨[], ?_⟩
        rcases he with rfl | rfl
        · exact Or.inl rfl
        · exact Or.inr rfl
      · obtain ⟨l5, h5⟩ := h.follow l1 l4 q' v' r' h3 hc1 hw1
        rw [h0, h2]
        refine ⟨l5 ++ [.followRedirection] ++ [e], ?_⟩
        rcases h5 with h5 | h5
        · exact Or.inl (by rw [h5]; rfl)
        · exact Or.inr (by rw [h5]; rfl)

end

/-! ## The invariant -/

/-- All requests in the application's reactions are in `Ask`. -/
def Scripted (Ask : ClientRequest → Prop) (c : Client) : Prop :=
  (∀ calls ∈ c.onHeaders, ∀ r, .request r ∈ calls → Ask r) ∧ (∀ calls ∈ c.onContent, ∀ r, .request r ∈ calls → Ask r) ∧ (∀ calls ∈ c.onFinished, ∀ r, .request r ∈ calls → Ask r)

/-- What the record says about the client. -/
def Says (c : Client) (x : Option (ClientRequest × Option View)) : Prop :=
  (c.responsePending = true → x = some (c.request, none)) ∧
  (c.responsePending = false → (x = none ∧ c.parsing = false ∧ c.view = ⟨0, [], []⟩) ∨ x = some (c.request, some c.view))

structure OInv (env : ClientEnv) (Ask : ClientRequest → Prop) (c : Client) : Prop where
  cur : ∃ x, Current c.log x ∧ Says c x
  idle : c.responsePending = true ∨ c.parsing = false → c.pendingRequest.method = none
  wait : c.pendingRequest.method ≠ none → Ask c.pendingRequest ∨ (c.parsing = true ∧ Follows env c.request c.view c.pendingRequest)
  just : Just env Ask c.log
  scripts : Scripted Ask c

def EmO (env : ClientEnv) (Ask : ClientRequest → Prop) (em : Signal → Client → Client) : Prop := ∀ s c, OInv env Ask (c.add (c.shows s)) → OInv env Ask (em s c)

/-- Events that say nothing about the present. -/
def CEv.Mute : CEv → Prop
  | .accepted _ | .deferred _ | .followRedirection | .finished .. | .consumed _ => False
  | _ => True

theorem Spec.Current.mute {l : List CEv} {x} {e : CEv} (he : e.Mute) (h : Current l x) : Current (l ++ [e]) x :=
  .other e (by rintro r rfl; exact he) (by rintro _ _ _ _ rfl; exact he) (by rintro _ rfl; exact he) h

section
variable {env : ClientEnv} {Ask : ClientRequest → Prop}

theorem Just.mute {l : List CEv} {e : CEv} (he : e.Mute) (h : Just env Ask l) : Just env Ask (l ++ [e]) :=
  h.plain (by rintro r rfl; exact he) (by rintro r rfl; exact he) (by rintro rfl; exact he)

theorem OInv.same {c c' : Client} (h : OInv env Ask c) (hl : c'.log = c.log ∨ ∃ e : CEv, e.Mute ∧ c'.log = c.log ++ [e]) (h1 : c'.pendingRequest = c.pendingRequest)
    (h2 : c'.responsePending = c.responsePending) (h3 : c'.parsing = c.parsing) (h4 : c'.request = c.request) (h5 : c.responsePending = true ∨ c'.view = c.view)
    (h6 : c'.onHeaders = c.onHeaders) (h7 : c'.onContent = c.onContent) (h8 : c'.onFinished = c.onFinished) : OInv env Ask c' := by
  obtain ⟨x, k1, k2, k3⟩ := h.cur
  refine ⟨⟨x, ?_, ?_, ?_⟩, ?_, ?_, ?_, ?_⟩
  · rcases hl with e | ⟨e, hm, e'⟩
    · rw [e]; exact k1
    · rw [e']; exact k1.mute hm
  · rw [h2, h4]; exact k2
  · rw [h2, h3, h4]
    intro hf
    rcases h5 with h5 | h5
    · rw [h5] at hf; cases hf
    · rw [h5]; exact k3 hf
  · rw [h1, h2, h3]; exact h.idle
  · rw [h1, h3, h4]
    intro hn
    rcases h5 with h5 | h5
    · exact absurd (h.idle (Or.inl h5)) hn
    · rw [h5]; exact h.wait hn
  · rcases hl with e | ⟨e, hm, e'⟩
    · rw [e]; exact h.just
    · rw [e']; exact h.just.mute hm
  · unfold Scripted; rw [h6, h7, h8]; exact h.scripts

/-- `finished()`. -/
theorem OInv.finish {c c' : Client} (h : OInv env Ask c) (hl : c'.log = c.log ∨ ∃ e : CEv, e.Mute ∧ c'.log = c.log ++ [e]) (h1 : c'.pendingRequest = c.pendingRequest)
    (h2 : c'.responsePending = false) (h3 : c'.parsing = c.parsing) (h4 : c'.request = c.request) (h5 : c.responsePending = true ∨ (c'.view = c.view ∧ c.parsing = true))
    (h6 : c'.onHeaders = c.onHeaders) (h7 : c'.onContent = c.onContent) (h8 : c'.onFinished = c.onFinished) : OInv env Ask (c'.add (c'.shows .finished)) := by
  obtain ⟨x, k1, k2, k3⟩ := h.cur
  have hx : ∃ v, x = some (c'.request, v) := by
    rw [h4]
    by_cases hp : c.responsePending = true
    · exact ⟨_, k2 hp⟩
    · rcases h5 with h5 | ⟨-, h5⟩
      · exact absurd h5 hp
      · rcases k3 (by simpa using hp) with ⟨-, h6, -⟩ | h6
        · rw [h5] at h6; cases h6
        · exact ⟨_, h6⟩
  have hc : Current c'.log x ∧ Just env Ask c'.log := by
    rcases hl with e | ⟨e, hm, e'⟩
    · rw [e]; exact ⟨k1, h.just⟩
    · rw [e']; exact ⟨k1.mute hm, h.just.mute hm⟩
  obtain ⟨v, rfl⟩ := hx
  refine ⟨⟨_, .finished _ _ _ _ hc.1, ?_, fun _ => Or.inr rfl⟩, ?_, ?_, ?_, ?_⟩
  · intro hp
    rw [show (c'.add (c'.shows .finished)).responsePending = false from h2] at hp; cases hp
  · intro hi
    rw [show (c'.add (c'.shows .finished)).responsePending = false from h2, show (c'.add (c'.shows .finished)).parsing = c.parsing from h3] at hi
    rw [show (c'.add (c'.shows .finished)).pendingRequest = c.pendingRequest from h1]
    exact h.idle (hi.elim (fun h => by cases h) Or.inr)
  · intro hn
    rw [show (c'.add (c'.shows .finished)).pendingRequest = c.pendingRequest from h1] at hn ⊢
    rcases h5 with h5 | ⟨h5, -⟩
    · exact absurd (h.idle (Or.inl h5)) hn
    · rw [show (c'.add (c'.shows .finished)).parsing = c.parsing from h3, show (c'.add (c'.shows .finished)).request = c.request from h4,
        show (c'.add (c'.shows .finished)).view = c.view from h5]
      exact h.wait hn
  · exact hc.2.plain (by intro r hr; cases hr) (by intro r hr; cases hr) (by intro hr; cases hr)
  · show Scripted Ask c'
    unfold Scripted; rw [h6, h7, h8]; exact h.scripts

theorem sendRequest_o (c : Client) : (c.sendRequest.log = c.log ∨ ∃ e : CEv, e.Mute ∧ c.sendRequest.log = c.log ++ [e]) ∧ c.sendRequest.pendingRequest = c.pendingRequest ∧
    c.sendRequest.responsePending = c.responsePending ∧ c.sendRequest.parsing = c.parsing ∧ c.sendRequest.request = c.request ∧ c.sendRequest.view = c.view ∧
    c.sendRequest.onHeaders = c.onHeaders ∧ c.sendRequest.onContent = c.onContent ∧ c.sendRequest.onFinished = c.onFinished := by
  unfold Client.sendRequest
  split
  · exact ⟨Or.inl rfl, rfl, rfl, rfl, rfl, rfl, rfl, rfl, rfl⟩
  · dsimp only
    split <;> exact ⟨Or.inr ⟨.write _ _, trivial, rfl⟩, rfl, rfl, rfl, rfl, rfl, rfl, rfl, rfl⟩

theorem OInv.send {c : Client} (h : OInv env Ask c) : OInv env Ask c.sendRequest := by
  obtain ⟨k1, k2, k3, k4, k5, k6, k7, k8, k9⟩ := sendRequest_o c
  exact h.same k1 k2 k3 k4 k5 (Or.inr k6) k7 k8 k9

section
variable {em : Signal → Client → Client} (he : EmO env Ask em)
include he

theorem OInv.deviceError {c : Client} (h : OInv env Ask c) (rc : Bool) : OInv env Ask (c.deviceError em rc) := by
  unfold Client.deviceError
  split
  · exact h
  · rename_i hp
    have hp : c.responsePending = true := by simpa using hp
    exact he _ _ (h.finish (Or.inr ⟨.close, trivial, rfl⟩) rfl rfl rfl rfl (Or.inl hp) rfl rfl rfl)

theorem OInv.connectReply {c : Client} (h : OInv env Ask c) : OInv env Ask (c.connectReply em) := by
  have h0 : OInv env Ask { c with onConnect := c.onConnect.tail } := h.same (Or.inl rfl) rfl rfl rfl rfl (Or.inr rfl) rfl rfl rfl
  unfold Client.connectReply
  dsimp only
  split
  · split
    · exact h0
    · exact OInv.send (h0.same (Or.inl rfl) rfl rfl rfl rfl (Or.inr rfl) rfl rfl rfl)
    · exact OInv.deviceError he h0 _
  · exact h0

theorem OInv.accept {c : Client} (hp : c.parsing = false) (r : ClientRequest) (hc : ∃ x, Current c.log x) (hn : c.pendingRequest.method = none) (hj : Just env Ask (c.log ++ [.accepted r]))
    (hs : Scripted Ask c) : OInv env Ask (c.accept em r) := by
  rw [accept_eq]
  have e : c.accepting r = { (c.add (.accepted r)) with request := r, responsePending := true, error := .noError, p := c.p.init, d := { c.d with headers := [], content := [] } } := by
    unfold Client.accepting Client.clear
    dsimp only
    rw [if_neg (by simp [Client.add, hp])]
    rfl
  have h1 : OInv env Ask (c.accepting r) := by
    rw [e]
    obtain ⟨x, hx⟩ := hc
    exact ⟨⟨_, .accepted r hx, fun _ => rfl, by rintro ⟨⟩⟩, fun _ => hn, fun h => absurd hn h, hj, hs⟩
  split
  · exact h1.send
  · refine OInv.connectReply he ?_
    generalize c.accepting r = c1 at h1
    unfold Client.reconnecting
    dsimp only
    have key : ∀ c2 : Client, OInv env Ask c2 → OInv env Ask { (c2.add (.connectToHost c2.request.url.host c2.request.url.portOr80)) with sock := c2.sock.connectToHost c2.request.url.host c2.request.url.portOr80 } :=
      fun c2 h2 => h2.same (Or.inr ⟨.connectToHost _ _, trivial, rfl⟩) rfl rfl rfl rfl (Or.inr rfl) rfl rfl rfl
    refine key _ ?_
    split
    · exact h1.same (Or.inr ⟨.disconnectFromHost, trivial, rfl⟩) rfl rfl rfl rfl (Or.inr rfl) rfl rfl rfl
    · exact h1.same (Or.inl rfl) rfl rfl rfl rfl (Or.inr rfl) rfl rfl rfl

omit he in
/-- A request that is put off. -/
theorem OInv.defer {c : Client} (h : OInv env Ask c) (hp : c.responsePending = false) (hpa : c.parsing = true) (r : ClientRequest) (l : List CEv)
    (hl : l = c.log ∨ l = c.log ++ [.followRedirection]) (hr : Ask r ∨ Follows env c.request c.view r) (hj : Just env Ask (l ++ [.deferred r])) :
    OInv env Ask { (c.add (.deferred r)) with log := l ++ [.deferred r], pendingRequest := r } := by
  obtain ⟨x, k1, k2, k3⟩ := h.cur
  have hc : Current l x := by
    rcases hl with rfl | rfl
    · exact k1
    · exact .other _ (by simp) (by simp) (by simp) k1
  refine ⟨⟨x, .other _ (by simp) (by simp) (by simp) hc, k2, k3⟩, ?_, fun _ => ?_, hj, h.scripts⟩
  · rintro (hi | hi)
    · rw [show c.responsePending = true from hi] at hp; cases hp
    · rw [show c.parsing = false from hi] at hpa; cases hpa
  · rcases hr with hr | hr
    · exact Or.inl hr
    · exact Or.inr ⟨hpa, hr⟩

theorem OInv.makeRequest {c : Client} (h : OInv env Ask c) (r : ClientRequest) (hr : Ask r) : OInv env Ask (c.makeRequest em r) := by
  unfold Client.makeRequest
  split
  · exact h.same (Or.inr ⟨.refused r, trivial, rfl⟩) rfl rfl rfl rfl (Or.inr rfl) rfl rfl rfl
  · rename_i hp
    have hp : c.responsePending = false := by simpa using hp
    split
    · rename_i hpa
      exact h.defer hp hpa r c.log (Or.inl rfl) (Or.inl hr) (h.just.snoc (fun r' h' => by
        rcases h' with h' | h' <;> cases h'; exact Or.inl hr) (by rintro ⟨⟩))
    · rename_i hpa
      have hpa : c.parsing = false := by simpa using hpa
      obtain ⟨x, k1, -⟩ := h.cur
      exact OInv.accept he hpa r ⟨x, k1⟩ (h.idle (Or.inr hpa)) (h.just.snoc (fun r' h' => by
        rcases h' with h' | h' <;> cases h'; exact Or.inl hr) (by rintro ⟨⟩)) h.scripts

theorem OInv.followRedirection {c : Client} (h : OInv env Ask c) : OInv env Ask (c.followRedirection env em) := by
  obtain ⟨x, k1, k2, k3⟩ := h.cur
  have hf := follows_iff env c
  have hcur : Current (c.add .followRedirection).log x := .other _ (by simp) (by simp) (by simp) k1
  -- a call without effect
  have quiet : (∀ q v r, Current c.log (some (q, some v)) → ¬ Follows env q v r) → OInv env Ask (c.add .followRedirection) := fun hq =>
    ⟨⟨x, hcur, k2, k3⟩, h.idle, h.wait, h.just.snoc (by rintro r (h | h) <;> cases h) (fun _ => hq), h.scripts⟩
  unfold Client.followRedirection
  dsimp only
  by_cases hr : c.redirected = true
  · rw [if_neg (by show ¬ (!c.redirected) = true; simp [hr])]
    unfold Client.makeRequest
    split
    · rename_i hp
      have hp : c.responsePending = true := hp
      refine (quiet ?_).same (Or.inr ⟨.refused _, trivial, rfl⟩) rfl rfl rfl rfl (Or.inr rfl) rfl rfl rfl
      intro q v r hc
      have := hc.unique k1 rfl
      rw [k2 hp] at this; cases this
    · rename_i hp
      have hp : c.responsePending = false := by simpa [Client.add] using hp
      have hr' : Follows env c.request c.view { c.request with url := env.parseUrl c.redirectionLocation } := (hf _).2 ⟨hr, rfl⟩
      have hx : x = some (c.request, some c.view) := by
        rcases k3 hp with ⟨-, -, h5⟩ | h5
        · have hs : c.p.status = 0 := congrArg View.status h5
          unfold Client.redirected at hr
          rw [hs] at hr; simp at hr
        · exact h5
      rw [hx] at k1
      have hu : ∀ r', Follows env c.request c.view r' → r' = { c.request with url := env.parseUrl c.redirectionLocation } := fun r' h' => ((hf r').1 h').2
      split
      · rename_i hpa
        have hpa : c.parsing = true := hpa
        exact h.defer hp hpa _ (c.log ++ [.followRedirection]) (Or.inr rfl) (Or.inr hr') (h.just.both k1 hr' hu (Or.inr rfl))
      · rename_i hpa
        have hpa : c.parsing = false := by simpa [Client.add] using hpa
        exact OInv.accept he (c := c.add .followRedirection) hpa _ ⟨x, hcur⟩ (h.idle (Or.inr hpa)) (h.just.both k1 hr' hu (Or.inl rfl)) h.scripts
  · rw [if_pos (by show (!c.redirected) = true; simpa using hr)]
    refine quiet fun q v r hc hw => ?_
    have := hc.unique k1 rfl
    by_cases hp : c.responsePending = true
    · rw [k2 hp] at this; cases this
    · rcases k3 (by simpa using hp) with ⟨h5, -⟩ | h5
      · rw [h5] at this; cases this
      · rw [h5] at this; cases this
        exact hr ((hf r).1 hw).1

theorem OInv.call {c : Client} (h : OInv env Ask c) (u : UserCall) (hu : ∀ r, u = .request r → Ask r) : OInv env Ask (c.call env em u) := by
  cases u with
  | request r => exact h.makeRequest he r (hu r rfl)
  | abort =>
    show OInv env Ask (c.abort em)
    unfold Client.abort
    dsimp only
    split
    · rename_i hp
      exact he _ _ (h.finish (Or.inr ⟨.abort, trivial, rfl⟩) rfl rfl rfl rfl (Or.inl hp) rfl rfl rfl)
    · exact h.same (Or.inr ⟨.abort, trivial, rfl⟩) rfl rfl rfl rfl (Or.inr rfl) rfl rfl rfl
  | consumeContent =>
    have key : OInv env Ask { (c.add (.consumed c.d.content)) with d := { c.d with content := [] } } := by
      obtain ⟨x, k1, k2, k3⟩ := h.cur
      have hj : Just env Ask (c.log ++ [.consumed c.d.content]) := h.just.plain (by simp) (by simp) (by simp)
      have hw : c.pendingRequest.method ≠ none → Ask c.pendingRequest ∨ (c.parsing = true ∧ Follows env c.request ⟨c.p.status, c.d.headers, []⟩ c.pendingRequest) :=
        fun hn => (h.wait hn).imp id fun hh => ⟨hh.1, follows_view rfl rfl hh.2⟩
      by_cases hp : c.responsePending = true
      · rw [k2 hp] at k1
        refine ⟨⟨_, .early _ k1, fun _ => rfl, fun hq => ?_⟩, h.idle, hw, hj, h.scripts⟩
        rw [show c.responsePending = false from hq] at hp; cases hp
      · have hp : c.responsePending = false := by simpa using hp
        rcases k3 hp with ⟨rfl, h5, h6⟩ | rfl
        · have h7 : c.p.status = 0 ∧ c.d.headers = [] ∧ c.d.content = [] := ⟨congrArg View.status h6, congrArg View.headers h6, congrArg View.content h6⟩
          refine ⟨⟨none, ?_, fun hq => ?_, fun _ => Or.inl ⟨rfl, h5, ?_⟩⟩, h.idle, hw, hj, h.scripts⟩
          · show Current (c.log ++ [.consumed c.d.content]) none
            rw [h7.2.2]; exact .never k1
          · rw [show c.responsePending = true from hq] at hp; cases hp
          · show (⟨c.p.status, c.d.headers, []⟩ : View) = _
            rw [h7.1, h7.2.1]
        · refine ⟨⟨_, .consumed k1, fun hq => ?_, fun _ => Or.inr rfl⟩, h.idle, hw, hj, h.scripts⟩
          rw [show c.responsePending = true from hq] at hp; cases hp
    show OInv env Ask c.consumeContent
    unfold Client.consumeContent
    dsimp only
    split
    · exact key.same (Or.inl rfl) rfl rfl rfl rfl (Or.inr rfl) rfl rfl rfl
    · exact key
  | followRedirection => exact h.followRedirection he
  | setKeepAliveTimeout ms => exact h.same (Or.inl rfl) rfl rfl rfl rfl (Or.inr rfl) rfl rfl rfl
  | setReadBufferSize n => exact h.same (Or.inl rfl) rfl rfl rfl rfl (Or.inr rfl) rfl rfl rfl

theorem OInv.calls : ∀ (l : List UserCall) {c : Client}, OInv env Ask c → (∀ r, .request r ∈ l → Ask r) → OInv env Ask (l.foldl (Client.call env em) c)
  | [], _, h, _ => h
  | u :: l, _, h, hl => OInv.calls l (h.call he u fun r e => hl r (by simp [e])) fun r hr => hl r (by simp [hr])

end

theorem headD_asked {l : List (List UserCall)} (h : ∀ calls ∈ l, ∀ r, .request r ∈ calls → Ask r) : ∀ r, .request r ∈ l.headD [] → Ask r := by
  cases l with
  | nil => intro r hr; simp at hr
  | cons a l => exact h a (by simp)

theorem emit_o (env : ClientEnv) (Ask : ClientRequest → Prop) : ∀ n, EmO env Ask (Client.emit env n)
  | 0, _, _, h => h
  | n + 1, s, c, h => by
    show OInv env Ask ((((c.add (c.shows s)).react s).1).foldl (Client.call env (Client.emit env n)) ((c.add (c.shows s)).react s).2)
    have hs := h.scripts
    have key : OInv env Ask ((c.add (c.shows s)).react s).2 := by
      generalize c.add (c.shows s) = c1 at h hs
      have hs' : Scripted Ask (c1.react s).2 := by
        cases s
        · exact ⟨fun x hx => hs.1 x (List.mem_of_mem_tail hx), hs.2.1, hs.2.2⟩
        · exact ⟨hs.1, fun x hx => hs.2.1 x (List.mem_of_mem_tail hx), hs.2.2⟩
        · exact ⟨hs.1, hs.2.1, fun x hx => hs.2.2 x (List.mem_of_mem_tail hx)⟩
      cases s <;> exact ⟨h.cur, h.idle, h.wait, h.just, hs'⟩
    refine OInv.calls (emit_o env Ask n) _ key ?_
    cases s
    · exact headD_asked hs.1
    · exact headD_asked hs.2.1
    · exact headD_asked hs.2.2

/-! ## The parser -/

section
variable {em : Signal → Client → Client} (he : EmO env Ask em) (hf : EmFramed em)
include he hf

theorem OInv.messageComplete {c : Client} (h : OInv env Ask c) (hpa : c.parsing = true) (hs : c.p.status ≠ 100) : OInv env Ask (c.messageComplete em) := by
  rw [messageComplete_eq, if_neg hs]
  obtain ⟨k1, k2, k3, k4, k5, k6, k7, k8, k9, k10, -⟩ := completing_facts c
  refine he _ _ (h.finish ?_ k10 k3 k2 k5 (Or.inr ⟨by unfold Client.view; rw [k1, k4], hpa⟩) k7 k8 k9)
  unfold Client.completing
  dsimp only
  split
  · exact Or.inr ⟨.close, trivial, rfl⟩
  · split
    · exact Or.inr ⟨.close, trivial, rfl⟩
    · exact Or.inl rfl

/-- While a response is awaited. -/
def Open (env : ClientEnv) (Ask : ClientRequest → Prop) (c : Client) : Prop := OInv env Ask c ∧ c.parsing = true ∧ c.responsePending = true

omit he hf in
theorem Open.same {c c' : Client} (h : Open env Ask c) (hl : c'.log = c.log) (h1 : c'.pendingRequest = c.pendingRequest) (h2 : c'.responsePending = c.responsePending)
    (h3 : c'.parsing = c.parsing) (h4 : c'.request = c.request) (h6 : c'.onHeaders = c.onHeaders) (h7 : c'.onContent = c.onContent) (h8 : c'.onFinished = c.onFinished) : Open env Ask c' :=
  ⟨h.1.same (Or.inl hl) h1 h2 h3 h4 (Or.inl h.2.2) h6 h7 h8, h3.trans h.2.1, h2.trans h.2.2⟩

/-- What is known about a callback. -/
theorem clientCb_o : ∀ k p (c : Client), p.errno = .ok → Open env Ask c →
    OInv env Ask (clientCb env em k p c).2 ∧ (clientCb env em k p c).2.parsing = true ∧
    ((clientCb env em k p c).1.errno = .ok → (clientCb env em k p c).2.responsePending = true) ∧
    ((clientCb env em k p c).1.errno ≠ .ok → (clientCb env em k p c).1 = (clientCb env em k p c).2.p ∧ (clientCb env em k p c).1.errno = .paused) := by
  intro k p c hk h
  have hpp : p.pause.errno = .paused := by rw [pause_ok hk]
  have htm := (clientCb_tame env hf).tame k p c hk
  have hpz : (clientCb env em k p c).1.errno ≠ .ok → (clientCb env em k p c).1.errno = .paused := by
    intro hn
    rcases htm with e | e
    · rw [e] at hn; exact absurd hk hn
    · exact e.1
  have h0 : ∀ d, Open env Ask { c with p := p, parsing := true, d := d } := fun d => h.same rfl rfl rfl h.2.1.symm rfl rfl rfl rfl
  cases k with
  | messageBegin => exact ⟨And.left (h.same rfl rfl rfl rfl rfl rfl rfl rfl), h.2.1, fun _ => h.2.2, fun hn => absurd hk hn⟩
  | field bs => exact ⟨And.left (h.same rfl rfl rfl rfl rfl rfl rfl rfl), h.2.1, fun _ => h.2.2, fun hn => absurd hk hn⟩
  | value bs => exact ⟨And.left (h.same rfl rfl rfl rfl rfl rfl rfl rfl), h.2.1, fun _ => h.2.2, fun hn => absurd hk hn⟩
  | headersComplete =>
    have hpar := (headersComplete_p env hf (c := { c with p := p, parsing := true, d := c.d.push }) rfl hk).1
    refine ⟨?_, hpar, ?_, fun hn => ⟨rfl, hpz hn⟩⟩
    · show OInv env Ask (Client.headersComplete env em { c with p := p, parsing := true, d := c.d.push })
      have h1 := h0 c.d.push
      have h2 := hf .headers { c with p := p, parsing := true, d := c.d.push } rfl
      have h3 := he .headers { c with p := p, parsing := true, d := c.d.push } (h1.1.same (Or.inr ⟨.headersCompleted _ _, trivial, rfl⟩) rfl rfl rfl rfl (Or.inr rfl) rfl rfl rfl)
      unfold Client.headersComplete
      split
      · exact h1.1
      · rename_i hs
        dsimp only
        generalize em .headers { c with p := p, parsing := true, d := c.d.push } = c1 at h2 h3 ⊢
        have hst : c1.p.status = p.status := by
          rcases h2.2 with ⟨-, e⟩ | ⟨-, -, e⟩
          · rw [e]
          · rw [e]; exact pause_status p
        split
        · refine OInv.messageComplete he hf (c := { c1 with p := c1.p.pause }) (h3.same (Or.inl rfl) rfl rfl rfl rfl (Or.inr ?_) rfl rfl rfl) h2.1 ?_
          · show (⟨c1.p.pause.status, c1.d.headers, c1.d.content⟩ : View) = _
            rw [pause_status]; rfl
          · show c1.p.pause.status ≠ 100
            rw [pause_status, hst]; exact hs
        · split
          · exact h3.same (Or.inl rfl) rfl rfl rfl rfl (Or.inr rfl) rfl rfl rfl
          · exact h3
    · show (Client.headersComplete env em { c with p := p, parsing := true, d := c.d.push }).p.errno = .ok → (Client.headersComplete env em { c with p := p, parsing := true, d := c.d.push }).responsePending = true
      have h2 := hf .headers { c with p := p, parsing := true, d := c.d.push } rfl
      unfold Client.headersComplete
      split
      · intro _; exact h.2.2
      · rename_i hs
        dsimp only
        generalize em .headers { c with p := p, parsing := true, d := c.d.push } = c1 at h2 ⊢
        have hbad : c1.p.errno = .ok → c1.responsePending = true := by
          intro hok
          rcases h2.2 with ⟨e, -⟩ | ⟨-, -, e⟩
          · exact e.trans h.2.2
          · rw [e] at hok
            rw [show ({ c with p := p, parsing := true, d := c.d.push } : Client).p.pause.errno = .paused from hpp] at hok
            cases hok
        have hst : c1.p.status = p.status := by
          rcases h2.2 with ⟨-, e⟩ | ⟨-, -, e⟩
          · rw [e]
          · rw [e]; exact pause_status p
        split
        · intro hok
          have hm := messageComplete_framed hf (c := { c1 with p := c1.p.pause }) h2.1 (by show c1.p.pause.status ≠ 100; rw [pause_status, hst]; exact hs)
          rw [hm.2.2] at hok
          have : c1.p.pause.errno ≠ .ok := by
            rcases h2.2 with ⟨-, e⟩ | ⟨-, -, e⟩
            · rw [e]; show p.pause.errno ≠ .ok; rw [hpp]; simp
            · rw [e]; show p.pause.pause.errno ≠ .ok; rw [pause_pause hk, hpp]; simp
          exact absurd hok this
        · split
          · exact hbad
          · exact hbad
  | body bs =>
    have hfr := messageContent_p env hf (c := { c with p := p, parsing := true }) bs rfl
    refine ⟨?_, hfr.1, ?_, fun hn => ⟨rfl, hpz hn⟩⟩
    · show OInv env Ask (Client.messageContent env em bs { c with p := p, parsing := true })
      rw [messageContent_eq]
      obtain ⟨ct, dec, e⟩ := storing_facts env bs { c with p := p, parsing := true }
      rw [e]
      have h1 : Open env Ask { { c with p := p, parsing := true } with contentDecoder := dec, d := { c.d with content := c.d.content ++ ct } } := h.same rfl rfl rfl h.2.1.symm rfl rfl rfl rfl
      exact he _ _ (h1.1.same (Or.inr ⟨.contentReadyRead _, trivial, rfl⟩) rfl rfl rfl rfl (Or.inr rfl) rfl rfl rfl)
    · intro hok
      have hok : (Client.messageContent env em bs { c with p := p, parsing := true }).p.errno = .ok := hok
      show (Client.messageContent env em bs { c with p := p, parsing := true }).responsePending = true
      rcases hfr.2 with ⟨e, -⟩ | ⟨-, -, e⟩
      · exact e.trans h.2.2
      · rw [e] at hok
        rw [show ({ c with p := p, parsing := true } : Client).p.pause.errno = .paused from hpp] at hok
        cases hok
  | messageComplete =>
    have hzz : (clientCb env em .messageComplete p c).1.errno ≠ .ok := by
      rcases htm with e | e
      · intro hok
        have : (clientCb env em .messageComplete p c).1 = (Client.messageComplete em { c with p := p, parsing := true }).p.pause := rfl
        rw [this] at hok
        unfold HParser.pause at hok
        split at hok
        · cases hok
        · rename_i hx
          exact hx (Or.inl hok)
      · rw [e.1]; simp
    refine ⟨?_, ?_, fun hok => absurd hok hzz, fun hn => ⟨rfl, hpz hn⟩⟩
    · show OInv env Ask { (Client.messageComplete em { c with p := p, parsing := true }) with p := (Client.messageComplete em { c with p := p, parsing := true }).p.pause }
      have key : OInv env Ask (Client.messageComplete em { c with p := p, parsing := true }) := by
        by_cases hs : p.status = 100
        · rw [messageComplete_eq, if_pos hs]
          obtain ⟨q, e⟩ := clear_eq { c with p := p, parsing := true, contentDecoder := none }
          show OInv env Ask (Client.clear { c with p := p, parsing := true, contentDecoder := none })
          rw [e]
          exact And.left (h.same rfl rfl rfl h.2.1.symm rfl rfl rfl rfl)
        · exact OInv.messageComplete he hf (h0 c.d).1 rfl hs
      refine key.same (Or.inl rfl) rfl rfl rfl rfl (Or.inr ?_) rfl rfl rfl
      unfold Client.view
      rw [pause_status]
    · show (Client.messageComplete em { c with p := p, parsing := true }).parsing = true
      by_cases hs : p.status = 100
      · rw [messageComplete_eq, if_pos hs]
        obtain ⟨q, e⟩ := clear_eq { c with p := p, parsing := true, contentDecoder := none }
        show (Client.clear { c with p := p, parsing := true, contentDecoder := none }).parsing = true
        rw [e]
      · exact (messageComplete_framed hf (c := { c with p := p, parsing := true }) rfl hs).1

/-- After the parser has run. -/
theorem OInv.inject {c : Client} (h : OInv env Ask { c with parsing := true }) (hp : c.responsePending = true) (data : Bytes) :
    OInv env Ask { (c.inject env em data).1 with parsing := true } ∧ ((c.inject env em data).1.hasError = true → (c.inject env em data).1.responsePending = true) := by
  have hb : Halts (clientCb env em) (Open env Ask) (fun p s => OInv env Ask s ∧ s.parsing = true ∧ p = s.p ∧ p.errno = .paused) := by
    refine ⟨fun k p s hk hs hok => ?_, fun k p s hk hs hn => ?_⟩
    · obtain ⟨h1, h2, h3, -⟩ := clientCb_o he hf k p s hk hs
      exact ⟨h1, h2, h3 hok⟩
    · obtain ⟨h1, h2, -, h4⟩ := clientCb_o he hf k p s hk hs
      exact ⟨h1, h2, (h4 hn).1, (h4 hn).2⟩
  have hx := halt_execute hb (p := c.p) (s := { c with parsing := true }) data ⟨h, rfl, hp⟩
  unfold Client.inject
  dsimp only
  generalize execute (clientCb env em) c.p { c with parsing := true } data = x at hx
  obtain ⟨q, s, n⟩ := x
  dsimp only at hx ⊢
  rcases hx with hx | ⟨h1, h2, h3, h4⟩
  · exact ⟨And.left (hx.same rfl rfl rfl hx.2.1.symm rfl rfl rfl rfl), fun _ => hx.2.2⟩
  · have e : (if q.errno = .paused then { q with errno := .ok } else q) = { q with errno := .ok } := if_pos h4
    rw [e]
    refine ⟨h1.same (Or.inl rfl) rfl rfl h2.symm rfl (Or.inr (by unfold Client.view; rw [← h3])) rfl rfl rfl, fun hbad => ?_⟩
    cases hbad

theorem OInv.receive (ht : EmTop em) (hg : EmGrows em) {c : Client} (h : OInv env Ask c) (hc : Top c) (hp : c.responsePending = true) (data : Bytes) : OInv env Ask (c.receive env em data) := by
  unfold Client.receive
  dsimp only
  have h0 : OInv env Ask { c with parsing := true } := by
    obtain ⟨x, k1, k2, -⟩ := h.cur
    refine ⟨⟨x, k1, k2, fun hq => ?_⟩, fun _ => h.idle (Or.inl hp), fun hn => absurd (h.idle (Or.inl hp)) hn, h.just, h.scripts⟩
    rw [show c.responsePending = false from hq] at hp; cases hp
  have h1 := OInv.inject he hf (c := c) h0 hp data
  have hp1 := inject_safe' hf env hc.safe data
  generalize (c.inject env em data).2 = n
  generalize (c.inject env em data).1 = c1 at h1 hp1 ⊢
  generalize hc2 : (if c1.responsePending then _ else _ : Client) = c2
  have h2 : OInv env Ask { c2 with parsing := true } ∧ c2.parsing = false := by
    subst hc2
    split
    · rename_i hpd
      generalize hc3 : (if !c1.hasError && decide (n < data.length) then (c1.inject env em (data.drop n)).1 else c1 : Client) = c3
      have h3 : (OInv env Ask { c3 with parsing := true } ∧ (c3.hasError = true → c3.responsePending = true)) ∧ Safe c3.p ∧ c3.parsing = false := by
        subst hc3
        split
        · have hs := inject_safe' hf env hp1.1 (data.drop n)
          exact ⟨OInv.inject he hf h1.1 hpd _, hs.1, hs.2.1⟩
        · exact ⟨h1, hp1.1, hp1.2.1⟩
      obtain ⟨⟨k1, k4⟩, k2, k3⟩ := h3
      clear hc3
      split
      · rename_i herr
        have hpd3 := k4 herr
        have hn : c3.pendingRequest.method = none := k1.idle (Or.inl hpd3)
        have hk : OInv env Ask c3 := by
          obtain ⟨x, m1, m2, -⟩ := k1.cur
          refine ⟨⟨x, m1, m2, fun hq => ?_⟩, fun _ => hn, fun hm => absurd hn hm, k1.just, k1.scripts⟩
          rw [hq] at hpd3; cases hpd3
        have hd' := he .finished _ (hk.finish (c' := { (c3.add .close) with error := .responseInvalid, sock := c3.sock.close, responsePending := false }) (Or.inr ⟨.close, trivial, rfl⟩) rfl rfl rfl rfl (Or.inl hpd3) rfl rfl rfl)
        have hgr := hg .finished { (c3.add .close) with error := .responseInvalid, sock := c3.sock.close, responsePending := false }
        have ht' := ht .finished { (c3.add .close) with error := .responseInvalid, sock := c3.sock.close, responsePending := false } ⟨k3, k2, by rintro ⟨⟩⟩
        generalize em .finished { (c3.add .close) with error := .responseInvalid, sock := c3.sock.close, responsePending := false } = c4 at hd' ht' hgr ⊢
        refine ⟨?_, ht'.parsing⟩
        obtain ⟨x, m1, m2, m3⟩ := hd'.cur
        have hn4 := hd'.idle (Or.inr ht'.parsing)
        refine ⟨⟨x, m1, m2, fun hq => ?_⟩, fun _ => hn4, fun hm => absurd hn4 hm, hd'.just, hd'.scripts⟩
        rcases m3 hq with ⟨rfl, -, -⟩ | m3
        · exfalso
          obtain ⟨y, y1, y2, -⟩ := hk.cur
          have hy := y2 hpd3
          obtain ⟨r, hr⟩ := (y1.none_or).2 (by rw [hy]; simp)
          exact (m1.none_or).1 rfl r (hgr.subset (by show _ ∈ _; simp [Client.add, hr]))
        · exact Or.inr m3
      · exact ⟨k1, k3⟩
    · exact ⟨h1.1, hp1.2.1⟩
  obtain ⟨k1, k3⟩ := h2
  clear hc2
  split
  · rename_i hcond
    simp only [Bool.and_eq_true, Bool.not_eq_true'] at hcond
    rw [makeRequest_accept (c := { c2 with pendingRequest := {} }) hcond.1 k3]
    obtain ⟨x, m1, m2, m3⟩ := k1.cur
    refine OInv.accept he (c := { c2 with pendingRequest := {} }) k3 _ ⟨x, m1⟩ rfl ?_ k1.scripts
    refine k1.just.snoc (fun r hr => ?_) (by rintro ⟨⟩)
    rcases hr with hr | hr <;> cases hr
    have hn : c2.pendingRequest.method ≠ none := by intro e; rw [e] at hcond; simp at hcond
    refine (k1.wait hn).imp id fun hh => ⟨_, _, ?_, hh.2⟩
    rcases m3 hcond.1 with ⟨-, hx, -⟩ | hx
    · cases hx
    · rw [← hx]; exact m1
  · rename_i hcond
    obtain ⟨x, m1, m2, m3⟩ := k1.cur
    have hn : c2.pendingRequest.method = none := by
      by_cases hp : c2.responsePending = true
      · exact k1.idle (Or.inl hp)
      · cases hm : c2.pendingRequest.method with
        | none => rfl
        | some m => simp [hp, hm] at hcond
    refine ⟨⟨x, m1, m2, fun hq => ?_⟩, fun _ => hn, fun hm => absurd hn hm, k1.just, k1.scripts⟩
    rcases m3 hq with ⟨-, hx, -⟩ | hx
    · cases hx
    · exact Or.inr hx

theorem OInv.readyRead (ht : EmTop em) (hg : EmGrows em) {c : Client} (h : OInv env Ask c) (hc : Top c) : OInv env Ask (c.readyRead env em) := by
  unfold Client.readyRead
  split
  · exact h.same (Or.inr ⟨.close, trivial, rfl⟩) rfl rfl rfl rfl (Or.inr rfl) rfl rfl rfl
  · rename_i hp
    have hp : c.responsePending = true := by simpa using hp
    split
    · exact h
    · dsimp only
      generalize (if c.sock.readBufferSize > 0 then _ else _ : Nat) = n
      split
      · exact h
      · exact OInv.receive he hf ht hg (c := { c with sock := { c.sock with rx := c.sock.rx.drop _ } }) (h.same (Or.inl rfl) rfl rfl rfl rfl (Or.inr rfl) rfl rfl rfl) (hc.same rfl rfl id) hp _

end

theorem OInv.step (fuel : Nat) {c : Client} (h : OInv env Ask c) (hc : Top c) (i : CInput) (hi : ∀ r, i = .call (.request r) → Ask r) : OInv env Ask (c.step env fuel i) := by
  have ho := emit_o env Ask fuel
  have hf := emit_framed env fuel
  have ht := emit_top env fuel
  have hg := emit_log env fuel
  cases i with
  | call u => exact h.call ho u fun r e => hi r (by rw [e])
  | connected =>
    show OInv env Ask (if c.sock.state = .connecting then { c with sock := { c.sock with state := .connected } }.sendRequest else c)
    split
    · exact OInv.send (h.same (Or.inl rfl) rfl rfl rfl rfl (Or.inr rfl) rfl rfl rfl)
    · exact h
  | error rc => exact h.deviceError ho rc
  | arrive bs =>
    show OInv env Ask (if c.sock.state = .connected ∨ c.sock.state = .closing then { c with sock := { c.sock with rx := c.sock.rx ++ bs } } else c)
    split
    · exact h.same (Or.inl rfl) rfl rfl rfl rfl (Or.inr rfl) rfl rfl rfl
    · exact h
  | readyRead => exact h.readyRead ho hf ht hg hc
  | disconnected => exact h.same (Or.inl rfl) rfl rfl rfl rfl (Or.inr rfl) rfl rfl rfl
  | unsent u => exact h.same (Or.inl rfl) rfl rfl rfl rfl (Or.inr rfl) rfl rfl rfl
  | timeout =>
    show OInv env Ask (if c.timers = 0 then c else { c with timers := c.timers - 1 }.readyRead env (Client.emit env fuel))
    split
    · exact h
    · exact OInv.readyRead ho hf ht hg (c := { c with timers := c.timers - 1 }) (h.same (Or.inl rfl) rfl rfl rfl rfl (Or.inr rfl) rfl rfl rfl) (hc.same rfl rfl id)
  | tick ms => exact h.same (Or.inl rfl) rfl rfl rfl rfl (Or.inr rfl) rfl rfl rfl

theorem OInv.run (fuel : Nat) : ∀ (is : List CInput) {c : Client}, OInv env Ask c → Top c → (∀ r, .call (.request r) ∈ is → Ask r) → OInv env Ask (c.run env fuel is)
  | [], _, h, _, _ => h
  | i :: is, _, h, hc, hi => OInv.run fuel is (h.step fuel hc i fun r e => hi r (by simp [e])) (hc.step env fuel i) fun r hr => hi r (by simp [hr])

theorem new_o {onH onC onF : List (List UserCall)} (onK : List SockReply) (hs : ∀ calls ∈ onH ++ onC ++ onF, ∀ r, .request r ∈ calls → Ask r) : OInv env Ask (Client.new onH onC onF onK) :=
  ⟨⟨none, .nil, (by rintro ⟨⟩), fun _ => Or.inl ⟨rfl, rfl, rfl⟩⟩, fun _ => rfl, fun h => absurd rfl h, Just.nil,
    fun x hx => hs x (by simp [show x ∈ onH from hx]), fun x hx => hs x (by simp [show x ∈ onC from hx]), fun x hx => hs x (by simp [show x ∈ onF from hx])⟩

end
end Pillow
