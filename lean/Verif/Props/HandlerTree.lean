import Verif.Spec.HandlerTree
import Verif.Props.Settings
import Verif.Props.Download
/-!
# C80: exactly one handler takes a request
-/
namespace Pillow.Props
open Pillow Pillow.Spec

theorem noDeed_nil : NoDeed [] := by intro m hm; cases hm
theorem noDeed_append {a b : List Doing} (ha : NoDeed a) (hb : NoDeed b) : NoDeed (a ++ b) := by
  intro m hm; rcases List.mem_append.1 hm with h | h; exact ha m h; exact hb m h
theorem noDeed_sets (ps : List (Bytes × Bytes)) : NoDeed (ps.map fun p => .set p.1 p.2) := by
  intro m hm d e; subst e; obtain ⟨p, -, e⟩ := List.mem_map.1 hm; cases e
theorem noDeed_reads (rt : Router) (c : Conn) : NoDeed (rt.reads c).moves := by
  unfold Router.reads; split
  · intro m hm d e; subst e; simp at hm
  · exact noDeed_nil

/-- Nobody has taken the request, or one has, and this was the last that happened; then the request is reported handled. -/
def Once (h : Handled) : Prop := ∃ quiet, NoDeed quiet ∧ (h.moves = quiet ∨ ∃ d, h.moves = quiet ++ [.act d] ∧ h.taken = true)

theorem once_none {c : Conn} {b : Bool} : Once ⟨b, [], c⟩ := ⟨[], noDeed_nil, .inl rfl⟩
theorem once_act {c : Conn} {d : Deed} : Once ⟨true, [.act d], c⟩ := ⟨[], noDeed_nil, .inr ⟨d, rfl, rfl⟩⟩

mutual
theorem once_handle (e : TreeEnv) : ∀ (t : Tree) (c : Conn), Once (t.handle e c)
  | .notHandler, c => by rw [Tree.handle]; exact once_none
  | .fixed st ct, c => by rw [Tree.handle]; exact once_act
  | .notFound, c => by rw [Tree.handle]; exact once_act
  | .function none, c => by rw [Tree.handle]; exact once_none
  | .function (some who), c => by rw [Tree.handle]; exact once_act
  | .log, c => by rw [Tree.handle]; exact ⟨[.note], by intro m hm d e; subst e; simp at hm, .inl rfl⟩
  | .file pub n, c => by
    rw [Tree.handle]
    generalize fileHandle e.fs e.dec e.md5 e.text pub n c.req = a
    cases a
    · exact once_none
    · exact once_act
    · exact once_act
  | .proxy none, c => by rw [Tree.handle]; exact once_none
  | .proxy (some who), c => by rw [Tree.handle]; exact once_act
  | .custom who sets takes, c => by
    rw [Tree.handle]
    by_cases h : takes (c.setParams (sets c)) = true
    · refine ⟨_, noDeed_sets (sets c), .inr ⟨.own who, by simp [h], h⟩⟩
    · exact ⟨_, noDeed_sets (sets c), .inl (by simp [h])⟩
  | .stack children, c => by rw [Tree.handle]; exact once_ask e children c
  | .router rt table targets, c => by
    rw [Tree.handle]
    dsimp only
    split
    · rename_i i ps _
      obtain ⟨q, hq, h⟩ := once_invoke e targets i ((rt.reads c).conn.setParams ps)
      refine ⟨(rt.reads c).moves ++ ps.map (fun p => .set p.1 p.2) ++ q, noDeed_append (noDeed_append (noDeed_reads rt c) (noDeed_sets ps)) hq, ?_⟩
      rcases h with h | ⟨d, h, -⟩
      · exact .inl (by rw [h])
      · exact .inr ⟨d, by rw [h]; simp, rfl⟩
    · exact ⟨_, noDeed_reads rt c, .inr ⟨_, rfl, rfl⟩⟩
    · exact ⟨_, noDeed_reads rt c, .inl rfl⟩
  | .static st hs ct, c => by rw [Tree.handle]; exact once_act
  | .slot none, c => by rw [Tree.handle]; exact once_none
  | .slot (some who), c => by rw [Tree.handle]; exact once_act
  | .gone, c => by rw [Tree.handle]; exact once_none

theorem once_ask (e : TreeEnv) : ∀ (ts : List Tree) (c : Conn), Once (Tree.ask e ts c)
  | [], c => by rw [Tree.ask]; exact once_none
  | t :: ts, c => by
    rw [Tree.ask]
    dsimp only
    split
    · exact once_handle e t c
    · rename_i hn
      obtain ⟨q, hq, h⟩ := once_handle e t c
      obtain ⟨q', hq', h'⟩ := once_ask e ts (t.handle e c).conn
      have h : (t.handle e c).moves = q := by
        rcases h with h | ⟨d, -, h⟩
        · exact h
        · exact absurd h hn
      refine ⟨q ++ q', noDeed_append hq hq', ?_⟩
      rcases h' with h' | ⟨d, h', k⟩
      · exact .inl (by rw [h, h'])
      · exact .inr ⟨d, by rw [h, h', List.append_assoc], k⟩

theorem once_invoke (e : TreeEnv) : ∀ (ts : List Tree) (i : Nat) (c : Conn), Once (Tree.invoke e ts i c)
  | [], i, c => by rw [Tree.invoke]; exact once_none
  | t :: ts, 0, c => by rw [Tree.invoke]; exact once_handle e t c
  | t :: ts, i + 1, c => by rw [Tree.invoke]; exact once_invoke e ts i c
end

/-- **C80**: however handlers are put into each other, at most one takes a request, this is the last thing that happens, and it is reported handled; if it is not reported handled, nobody has taken it. -/
theorem C80_at_most_one (e : TreeEnv) (t : Tree) (c : Conn) : ∃ quiet, NoDeed quiet ∧ ((t.handle e c).moves = quiet ∨ ∃ d, (t.handle e c).moves = quiet ++ [.act d] ∧ (t.handle e c).taken = true) :=
  once_handle e t c

theorem deeds_quiet {q : List Doing} (h : NoDeed q) : deeds q = [] := by
  unfold deeds; rw [List.filterMap_eq_nil_iff]
  intro m hm
  cases m with
  | act d => exact absurd rfl (h _ hm d)
  | _ => rfl

theorem deeds_append (a b : List Doing) : deeds (a ++ b) = deeds a ++ deeds b := by simp [deeds, List.filterMap_append]

theorem once_deeds {h : Handled} (o : Once h) : (deeds h.moves = [] ∨ ∃ d, deeds h.moves = [d] ∧ h.taken = true) := by
  obtain ⟨q, hq, h | ⟨d, h, k⟩⟩ := o
  · exact .inl (by rw [h, deeds_quiet hq])
  · exact .inr ⟨d, by rw [h, deeds_append, deeds_quiet hq]; rfl, k⟩

theorem invoke_get (e : TreeEnv) : ∀ (ts : List Tree) (i : Nat) (c : Conn), Tree.invoke e ts i c = match ts[i]? with | some t => t.handle e c | none => ⟨false, [], c⟩
  | [], i, c => by rw [Tree.invoke]; rfl
  | t :: ts, 0, c => by rw [Tree.invoke]; rfl
  | t :: ts, i + 1, c => by rw [Tree.invoke, invoke_get e ts i c, List.getElem?_cons_succ]

theorem router_handle (e : TreeEnv) (rt : Router) (table : List (Bytes × Bytes)) (targets : List Tree) (c : Conn) : (Tree.router rt table targets).handle e c =
    match finds e rt table c with
    | .invoke i ps => ⟨true, (rt.reads c).moves ++ ps.map (fun p => .set p.1 p.2) ++ (Tree.invoke e targets i ((rt.reads c).conn.setParams ps)).moves,
        (Tree.invoke e targets i ((rt.reads c).conn.setParams ps)).conn⟩
    | .answer a => ⟨true, (rt.reads c).moves ++ [.act (.call a)], (rt.reads c).conn⟩
    | .pass => ⟨false, (rt.reads c).moves, (rt.reads c).conn⟩ := by
  rw [Tree.handle]
  rfl

/-- The request is reported handled and nobody has taken it. -/
def Unanswered (h : Handled) : Prop := h.taken = true ∧ deeds h.moves = []

mutual
theorem ends_lost (e : TreeEnv) : ∀ (t : Tree) (c : Conn), Unanswered (t.handle e c) → Lost e t c
  | .notHandler, c => by rw [Tree.handle]; rintro ⟨h, -⟩; cases h
  | .fixed st ct, c => by rw [Tree.handle]; rintro ⟨-, h⟩; cases h
  | .notFound, c => by rw [Tree.handle]; rintro ⟨-, h⟩; cases h
  | .function none, c => by rw [Tree.handle]; rintro ⟨h, -⟩; cases h
  | .function (some who), c => by rw [Tree.handle]; rintro ⟨-, h⟩; cases h
  | .log, c => by rw [Tree.handle]; rintro ⟨h, -⟩; cases h
  | .file pub n, c => by
    rw [Tree.handle]
    generalize fileHandle e.fs e.dec e.md5 e.text pub n c.req = a
    cases a
    · rintro ⟨h, -⟩; cases h
    · rintro ⟨-, h⟩; cases h
    · rintro ⟨-, h⟩; cases h
  | .proxy none, c => by rw [Tree.handle]; rintro ⟨h, -⟩; cases h
  | .proxy (some who), c => by rw [Tree.handle]; rintro ⟨-, h⟩; cases h
  | .custom who sets takes, c => by
    rw [Tree.handle]
    rintro ⟨h, k⟩
    dsimp only at h k
    rw [h, deeds_append] at k
    simp [deeds] at k
  | .stack children, c => by
    rw [Tree.handle]
    intro h
    obtain ⟨pre, t, post, c', rfl, h1, h2⟩ := ends_ask e children c h
    exact .child pre t post c c' h1 h2
  | .router rt table targets, c => by
    rw [router_handle]
    split
    · rename_i i ps hf
      rintro ⟨-, h⟩
      dsimp only at h
      rw [deeds_append] at h
      have h := (List.append_eq_nil_iff.1 h).2
      by_cases hk : (Tree.invoke e targets i ((rt.reads c).conn.setParams ps)).taken = true
      · obtain ⟨t, h1, h2⟩ := ends_invoke e targets i _ ⟨hk, h⟩
        exact .deeper rt table targets c i ps t hf h1 h2
      · refine .refused rt table targets c i ps hf fun t ht => ?_
        rw [invoke_get, ht] at hk
        simpa using hk
    · rintro ⟨-, h⟩
      dsimp only at h
      rw [deeds_append] at h
      exact absurd (List.append_eq_nil_iff.1 h).2 (by simp [deeds])
    · rintro ⟨h, -⟩; cases h
  | .static st hs ct, c => by rw [Tree.handle]; rintro ⟨-, h⟩; cases h
  | .slot none, c => by rw [Tree.handle]; rintro ⟨h, -⟩; cases h
  | .slot (some who), c => by rw [Tree.handle]; rintro ⟨-, h⟩; cases h
  | .gone, c => by rw [Tree.handle]; rintro ⟨h, -⟩; cases h

theorem ends_ask (e : TreeEnv) : ∀ (ts : List Tree) (c : Conn), Unanswered (Tree.ask e ts c) → ∃ pre t post c', ts = pre ++ t :: post ∧ Refuse e pre c c' ∧ Lost e t c'
  | [], c => by rw [Tree.ask]; rintro ⟨h, -⟩; cases h
  | t :: ts, c => by
    rw [Tree.ask]
    dsimp only
    split
    · intro h
      exact ⟨[], t, ts, c, rfl, .nil c, ends_lost e t c h⟩
    · rename_i hn
      rintro ⟨h, k⟩
      dsimp only at h k
      rw [deeds_append] at k
      obtain ⟨pre, t', post, c', rfl, h1, h2⟩ := ends_ask e ts _ ⟨h, (List.append_eq_nil_iff.1 k).2⟩
      exact ⟨t :: pre, t', post, c', rfl, .cons t pre c c' (by simpa using hn) h1, h2⟩

theorem ends_invoke (e : TreeEnv) : ∀ (ts : List Tree) (i : Nat) (c : Conn), Unanswered (Tree.invoke e ts i c) → ∃ t, ts[i]? = some t ∧ Lost e t c
  | [], i, c => by rw [Tree.invoke]; rintro ⟨h, -⟩; cases h
  | t :: ts, 0, c => by rw [Tree.invoke]; exact fun h => ⟨t, rfl, ends_lost e t c h⟩
  | t :: ts, i + 1, c => by rw [Tree.invoke]; exact fun h => ends_invoke e ts i c h
end

theorem ask_refuse {e : TreeEnv} {pre : List Tree} {c c' : Conn} (h : Refuse e pre c c') (t : Tree) (post : List Tree) (ht : (t.handle e c').taken = true) :
    (Tree.ask e (pre ++ t :: post) c).taken = true ∧ deeds (Tree.ask e (pre ++ t :: post) c).moves = deeds (t.handle e c').moves := by
  induction h with
  | nil c => rw [List.nil_append, Tree.ask, if_pos ht]; exact ⟨ht, rfl⟩
  | cons t' ts c c' hn _ ih =>
    rw [List.cons_append, Tree.ask, if_neg (by rw [hn]; simp)]
    dsimp only
    rw [deeds_append]
    have : deeds (t'.handle e c).moves = [] := by
      rcases once_deeds (once_handle e t' c) with h | ⟨d, -, h⟩
      · exact h
      · rw [hn] at h; cases h
    rw [this]
    exact ih ht

theorem lost_ends {e : TreeEnv} {t : Tree} {c : Conn} (h : Lost e t c) : Unanswered (t.handle e c) := by
  induction h with
  | refused rt table targets c i ps hf ht =>
    rw [router_handle, hf]
    refine ⟨rfl, ?_⟩
    dsimp only
    rw [deeds_append, deeds_append, deeds_quiet (noDeed_reads rt c), deeds_quiet (noDeed_sets ps), invoke_get]
    cases hg : targets[i]? with
    | none => rfl
    | some t =>
      rcases once_deeds (once_handle e t ((rt.reads c).conn.setParams ps)) with h | ⟨d, -, h⟩
      · exact h
      · rw [ht t hg] at h; cases h
  | deeper rt table targets c i ps t hf ht _ ih =>
    rw [router_handle, hf]
    refine ⟨rfl, ?_⟩
    dsimp only
    rw [deeds_append, deeds_append, deeds_quiet (noDeed_reads rt c), deeds_quiet (noDeed_sets ps), invoke_get, ht]
    exact ih.2
  | child before t after c c' hr _ ih =>
    rw [Tree.handle]
    obtain ⟨h1, h2⟩ := ask_refuse hr t after ih.1
    exact ⟨h1, by rw [h2]; exact ih.2⟩

/-- **C80**, exactly: a request that is reported handled has been taken by exactly one handler, unless it ended with a route whose target refuses it (see `C80_violation`). -/
theorem C80_exactly (e : TreeEnv) (t : Tree) (c : Conn) : (t.handle e c).taken = true → ((∃ d, deeds (t.handle e c).moves = [d]) ↔ ¬ Lost e t c) := by
  intro ht
  constructor
  · rintro ⟨d, hd⟩ hl
    rw [(lost_ends hl).2] at hd; cases hd
  · intro hn
    rcases once_deeds (once_handle e t c) with h | ⟨d, h, -⟩
    · exact absurd (ends_lost e t c ⟨ht, h⟩) hn
    · exact ⟨d, h⟩

theorem ask_last (e : TreeEnv) (t : Tree) (ht : ∀ c, (t.handle e c).taken = true) : ∀ (ts : List Tree) (c : Conn), (Tree.ask e (ts ++ [t]) c).taken = true
  | [], c => by rw [List.nil_append, Tree.ask, if_pos (ht c)]; exact ht c
  | t' :: ts, c => by
    rw [List.cons_append, Tree.ask]
    dsimp only
    split
    · assumption
    · exact ask_last e t ht ts _

/-- **C80**: a stack that ends with a handler that answers everything (`HttpHandler404`, `HttpHandlerFixed`) has every request taken by exactly one handler, unless it ended with a
route whose target refuses it. -/
theorem C80_answered_partial (e : TreeEnv) (ts : List Tree) (last : Tree) (hl : last = .notFound ∨ ∃ st ct, last = .fixed st ct) (c : Conn) (hn : ¬ Lost e (.stack (ts ++ [last])) c) :
    ((Tree.stack (ts ++ [last])).handle e c).taken = true ∧ ∃ d, deeds ((Tree.stack (ts ++ [last])).handle e c).moves = [d] := by
  have ht : ((Tree.stack (ts ++ [last])).handle e c).taken = true := by
    rw [Tree.handle]
    refine ask_last e last (fun c => ?_) ts c
    rcases hl with rfl | ⟨st, ct, rfl⟩ <;> rw [Tree.handle] <;> rfl
  exact ⟨ht, (C80_exactly e _ c ht).2 hn⟩

/-! ## The handlers and the connection -/

/-- What handlers may have changed before anybody takes the request: its parameters. -/
structure SameBut (c c' : Conn) : Prop where
  fault : c'.fault = c.fault
  st : c'.st = c.st
  log : c'.log = c.log
  req : c'.req = c.req
  views : c'.viewsValid = c.viewsValid

theorem SameBut.refl (c : Conn) : SameBut c c := ⟨rfl, rfl, rfl, rfl, rfl⟩
theorem SameBut.trans {a b c : Conn} (h : SameBut a b) (k : SameBut b c) : SameBut a c :=
  ⟨k.fault.trans h.fault, k.st.trans h.st, k.log.trans h.log, k.req.trans h.req, k.views.trans h.views⟩

theorem same_read (c : Conn) : SameBut c c.requestParams := by unfold Conn.requestParams; split <;> exact ⟨rfl, rfl, rfl, rfl, rfl⟩
theorem same_set (c : Conn) (n v : Bytes) : SameBut c (c.setRequestParam n v) := by
  have h := same_read c
  exact ⟨h.fault, h.st, h.log, h.req, h.views⟩

/-- The calls made before anybody takes the request. -/
def prep (m : Doing) : List Label := match m with | .act _ => [] | m => Doing.labels m

theorem prep_quiet {ms : List Doing} (h : NoDeed ms) : ms.flatMap prep = ms.flatMap Doing.labels := by
  induction ms with
  | nil => rfl
  | cons m ms ih =>
    rw [List.flatMap_cons, List.flatMap_cons, ih (fun x hx => h x (by simp [hx]))]
    cases m with
    | act d => exact absurd rfl (h _ (by simp) d)
    | _ => rfl

/-- These moves lead from the connection `c` to `c'`. -/
def Leads (ms : List Doing) (c c' : Conn) : Prop :=
  SameBut c c' ∧ ∀ s : Conf, s.c = c → s.inEnv = true → s.c.fault = none → s.run (ms.flatMap prep) = some ⟨c', s.stack⟩

theorem leads_nil (c : Conn) : Leads [] c c := ⟨.refl c, fun s h _ _ => by subst h; rfl⟩

theorem run_app (s : Conf) : ∀ (a b : List Label), s.run (a ++ b) = (s.run a).bind (·.run b) := by
  intro a
  induction a generalizing s with
  | nil => intro b; rfl
  | cons l a ih =>
    intro b
    simp only [List.cons_append, Conf.run]
    cases s.step l with
    | none => rfl
    | some s' => exact ih s' b

theorem Leads.append {a b : List Doing} {c c' c'' : Conn} (h : Leads a c c') (k : Leads b c' c'') : Leads (a ++ b) c c'' := by
  refine ⟨h.1.trans k.1, fun s hs he hf => ?_⟩
  rw [List.flatMap_append, run_app, h.2 s hs he hf]
  exact k.2 ⟨c', s.stack⟩ rfl he (by show c'.fault = none; rw [h.1.fault, ← hs, hf])

theorem leads_act (c : Conn) (d : Deed) : Leads [.act d] c c := ⟨.refl c, fun s h _ _ => by subst h; rfl⟩
theorem leads_note (c : Conn) : Leads [.note] c c := ⟨.refl c, fun s h _ _ => by subst h; rfl⟩
theorem leads_read (c : Conn) : Leads [.read] c c.requestParams :=
  ⟨same_read c, fun s h he hf => by subst h; simp [prep, Doing.labels, Conf.run, Conf.step, he, hf]⟩
theorem leads_set (c : Conn) (n v : Bytes) : Leads [.set n v] c (c.setRequestParam n v) :=
  ⟨same_set c n v, fun s h he hf => by subst h; simp [prep, Doing.labels, Conf.run, Conf.step, he, hf]⟩
theorem leads_sets (ps : List (Bytes × Bytes)) (c : Conn) : Leads (ps.map fun p => .set p.1 p.2) c (c.setParams ps) := by
  induction ps generalizing c with
  | nil => exact leads_nil c
  | cons p ps ih => exact Leads.append (a := [.set p.1 p.2]) (leads_set c p.1 p.2) (ih _)
theorem leads_reads (rt : Router) (c : Conn) : Leads (rt.reads c).moves c (rt.reads c).conn := by
  unfold Router.reads; split
  · exact leads_read c
  · exact leads_nil c

mutual
theorem leads_handle (e : TreeEnv) : ∀ (t : Tree) (c : Conn), Leads (t.handle e c).moves c (t.handle e c).conn
  | .notHandler, c => by rw [Tree.handle]; exact leads_nil c
  | .fixed st ct, c => by rw [Tree.handle]; exact leads_act c _
  | .notFound, c => by rw [Tree.handle]; exact leads_act c _
  | .function none, c => by rw [Tree.handle]; exact leads_nil c
  | .function (some who), c => by rw [Tree.handle]; exact leads_act c _
  | .log, c => by rw [Tree.handle]; exact leads_note c
  | .file pub n, c => by
    rw [Tree.handle]
    generalize fileHandle e.fs e.dec e.md5 e.text pub n c.req = a
    cases a
    · exact leads_nil c
    · exact leads_act c _
    · exact leads_act c _
  | .proxy none, c => by rw [Tree.handle]; exact leads_nil c
  | .proxy (some who), c => by rw [Tree.handle]; exact leads_act c _
  | .custom who sets takes, c => by
    rw [Tree.handle]
    refine (leads_sets (sets c) c).append ?_
    split
    · exact leads_act _ _
    · exact leads_nil _
  | .stack children, c => by rw [Tree.handle]; exact leads_ask e children c
  | .router rt table targets, c => by
    rw [router_handle]
    split
    · rename_i i ps _
      exact ((leads_reads rt c).append (leads_sets ps _)).append (leads_invoke e targets i _)
    · exact (leads_reads rt c).append (leads_act _ _)
    · exact leads_reads rt c
  | .static st hs ct, c => by rw [Tree.handle]; exact leads_act c _
  | .slot none, c => by rw [Tree.handle]; exact leads_nil c
  | .slot (some who), c => by rw [Tree.handle]; exact leads_act c _
  | .gone, c => by rw [Tree.handle]; exact leads_nil c

theorem leads_ask (e : TreeEnv) : ∀ (ts : List Tree) (c : Conn), Leads (Tree.ask e ts c).moves c (Tree.ask e ts c).conn
  | [], c => by rw [Tree.ask]; exact leads_nil c
  | t :: ts, c => by
    rw [Tree.ask]
    dsimp only
    split
    · exact leads_handle e t c
    · exact (leads_handle e t c).append (leads_ask e ts _)

theorem leads_invoke (e : TreeEnv) : ∀ (ts : List Tree) (i : Nat) (c : Conn), Leads (Tree.invoke e ts i c).moves c (Tree.invoke e ts i c).conn
  | [], i, c => by rw [Tree.invoke]; exact leads_nil c
  | t :: ts, 0, c => by rw [Tree.invoke]; exact leads_handle e t c
  | t :: ts, i + 1, c => by rw [Tree.invoke]; exact leads_invoke e ts i c
end

/-- **C80**: until somebody takes the request, handlers leave the connection as it is, except for its parameters: no handler finds it answered, or a different request. -/
theorem C80_unchanged (e : TreeEnv) (t : Tree) (s : Conf) (he : s.inEnv = true) (hf : s.c.fault = none) :
    ∃ quiet deed, NoDeed quiet ∧ (t.handle e s.c).moves = quiet ++ deed ∧ (deed = [] ∨ ∃ d, deed = [.act d]) ∧
      s.run (quiet.flatMap Doing.labels) = some ⟨(t.handle e s.c).conn, s.stack⟩ ∧ (t.handle e s.c).conn.log = s.c.log ∧ (t.handle e s.c).conn.st = s.c.st ∧
      (t.handle e s.c).conn.req = s.c.req ∧ (t.handle e s.c).conn.viewsValid = s.c.viewsValid := by
  have h := leads_handle e t s.c
  have hrun := h.2 s rfl he hf
  obtain ⟨q, hq, hm | ⟨d, hm, -⟩⟩ := once_handle e t s.c
  · exact ⟨q, [], hq, by rw [hm, List.append_nil], .inl rfl, by rw [← prep_quiet hq, ← hm]; exact hrun, h.1.log, h.1.st, h.1.req, h.1.views⟩
  · refine ⟨q, [.act d], hq, hm, .inr ⟨d, rfl⟩, ?_, h.1.log, h.1.st, h.1.req, h.1.views⟩
    rw [hm, List.flatMap_append] at hrun
    rw [← prep_quiet hq]
    simpa [prep] using hrun

theorem labels_quiet (ms : List Doing) : ∀ l ∈ ms.flatMap Doing.labels, l ≠ .init := by
  intro l hl e; subst e
  obtain ⟨m, -, h⟩ := List.mem_flatMap.1 hl
  cases m with
  | act d => cases d <;> simp [Doing.labels] at h
  | _ => simp [Doing.labels] at h

/-- **C80**: the client of the request is told what the handler that takes it answers. -/
theorem C80_told (env : ClientEnv) (fuel : Nat) (c : Client) (s : Conf) (h : AskedServer env fuel c s) (e : TreeEnv) (t : Tree) (status : Int) (hs : Headers) (ct : Bytes)
    (hd : deeds (t.handle e s.c).moves = [.call (.writeResponse status hs ct)]) (hst : status ∈ rfcCodes) (h100 : status ≠ 100)
    (hp : ∀ x ∈ hs, PlainHeader x) (hcl : ∀ x ∈ hs, ¬ SameCI x.name b!"content-length") (hsz : headerBytes hs ≤ 24 * 1024) (hl : ct.length < 2147483648) (hz : ¬ Gzipped hs ∨ env.inflate = none) :
    ∃ n t' hd b, s.run ((t.handle e s.c).moves.flatMap Doing.labels ++ taus n) = some t' ∧ t'.inEnv = true ∧
      t'.c.log = s.c.log ++ .head hd :: b ++ [.completed] ∧ hd.headers = hs ∧
      ∀ inputs, Reaches (wireOf (.head hd :: b)) inputs →
        (∃ shown, HeadersOf s.c.req hd shown ∧ ReportsAs c.log (c.run env fuel inputs).log status.toNat shown (due c.request ct)) ∧ WellServed env fuel (c.run env fuel inputs) := by
  obtain ⟨q, d, hq, hm, hd1, k1, k2, k3, k4, k5⟩ := C80_unchanged e t s h.control h.fault
  have hd2 : d = [.act (.call (.writeResponse status hs ct))] := by
    rw [hm, deeds_append, deeds_quiet hq, List.nil_append] at hd
    rcases hd1 with rfl | ⟨x, rfl⟩
    · cases hd
    · have : [x] = [Deed.call (.writeResponse status hs ct)] := hd
      rw [List.cons.injEq] at this
      rw [this.1]
  have hlab : (t.handle e s.c).moves.flatMap Doing.labels = q.flatMap Doing.labels ++ [.call (.writeResponse status hs ct)] := by
    rw [hm, hd2, List.flatMap_append]; rfl
  have hf := (leads_handle e t s.c).1.fault
  have ha : AskedServer env fuel c ⟨(t.handle e s.c).conn, s.stack⟩ := by
    refine ⟨h.served, h.awaiting, h.last, h.askable, reach_run h.reach k1 (labels_quiet _), h.control, hf.trans h.fault, k3.trans h.handing, ?_, ?_⟩
    · show received (epoch (t.handle e s.c).conn.log) <+: _; rw [k2]; exact h.received
    · show (readys (epoch (t.handle e s.c).conn.log)).length = _; rw [k2]; exact h.count
  obtain ⟨n, t', hd', b, a1, a2, a3, a4, a5⟩ := C78_answer env fuel c _ ha status hs ct hst h100 hp hcl hsz hl hz
  refine ⟨n, t', hd', b, ?_, a2, ?_, a4, ?_⟩
  · rw [hlab, List.append_assoc, run_app, k1]; exact a1
  · rw [a3]; show (t.handle e s.c).conn.log ++ _ ++ _ = _; rw [k2]
  · intro inputs hi
    have := a5 inputs hi
    rwa [show (⟨(t.handle e s.c).conn, s.stack⟩ : Conf).c.req = s.c.req from k4] at this

/-! ## Examples -/

/-- Files under `/files/`, and 404 for everything else. -/
def demoTree : Tree := .stack [.log, .router {} [(b!"GET", b!"/files/*name"), ([], b!"/hello/:who")] [.file b!"/srv" 100, .static 200 [] b!"hello"], .notFound]

/-- An environment in which no file is present. -/
def demoTreeEnv : TreeEnv :=
  { words := plainWords.word, engine := greedyEngine plainWords.word, dec := id, md5 := id, text := id,
    fs := { present := fun _ => false, canonical := id, isFile := fun _ => false, contents := fun _ => none } }

/-- Of these requests the first is answered by the route with the fixed response, the second by the 404 handler. -/
example : deeds (demoTree.handle demoTreeEnv { req := { method := b!"PUT", path := b!"/hello/you" } }).moves = [.call (.writeResponse 200 [] b!"hello")] ∧
    deeds (demoTree.handle demoTreeEnv { req := { method := b!"PUT", path := b!"/hello/" } }).moves =
      [.call (.writeResponse 404 [] b!"The requested resource '/hello/' does not exist on this server")] := by
  constructor <;> decide +kernel

/-- C80 fails when a route leads to a handler that refuses the request: the router reports it handled, the handlers after it are not asked, and nobody ever answers. Here a file is
asked for that does not exist, and the 404 handler behind the router does not get to know it. -/
theorem C80_violation : ∃ s r, Reach Proper s ∧ Handling s r ∧ r.path = b!"/files/x" ∧ Lost demoTreeEnv demoTree s.c ∧ (demoTree.handle demoTreeEnv s.c).taken = true ∧
    deeds (demoTree.handle demoTreeEnv s.c).moves = [] := by
  obtain ⟨t, h1, h2⟩ := exists_of_endsIn (allowed := Proper) (ls := [.init, .recv b!"GET /files/x HTTP/1.1\r\n\r\n", .call .processInput] ++ taus 3)
    (p := fun s => s.inEnv && s.c.fault == none && s.c.st == .sendingHeaders && (readys s.c.log).getLast?.any (fun r => r.path == b!"/files/x") && (demoTree.handle demoTreeEnv s.c).taken &&
      deeds (demoTree.handle demoTreeEnv s.c).moves == []) (by decide +kernel)
  simp only [Bool.and_eq_true, beq_iff_eq] at h2
  obtain ⟨⟨⟨⟨⟨k1, k2⟩, k3⟩, k4⟩, k5⟩, k6⟩ := h2
  cases hr : (readys t.c.log).getLast? with
  | none => rw [hr] at k4; cases k4
  | some r =>
    rw [hr] at k4
    exact ⟨t, r, h1, ⟨k1, k2, .inl k3, hr⟩, by simpa using k4, ends_lost _ _ _ ⟨k5, k6⟩, k5, k6⟩

end Pillow.Props
