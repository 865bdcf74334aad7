import Verif.Lemmas.Reuse
import Verif.Props.Server
import Verif.Props.LogEntry
set_option linter.unusedSimpArgs false
set_option linter.unusedVariables false
/-!
# C73: a connection object taken from the pool serves its next client as a new one would
-/
namespace Pillow.Props
open Pillow Pillow.Spec

theorem fault_none {s s' : Conf} {l : Label} (h : s.step l = some s') : s.c.fault = none := by
  cases hf : s.c.fault with
  | none => rfl
  | some f => simp [Conf.step, hf] at h

theorem step_init {s : Conf} (hst : s.stack = []) (hf : s.c.fault = none) : s.step .init = some ⟨s.c.initialize, []⟩ := by
  simp [Conf.step, hf, Conf.inEnv, hst]

/-- C73, the object: take any connection object that has been used in any way and is free again, and let the same happen to it and to a newly constructed one — `initialize`, then any
bytes, calls and answers of the device. Then either both can do it or neither, and afterwards the used object is to its client exactly what the new one is: the same was emitted and
written, the same is going on, and the request it shows is the same. Partial: the application must not ask for the request before the new client's first one was handed out
(`C73_violation`). -/
theorem C73_as_new_partial (s : Conf) (h : Reach Proper s) (hst : s.stack = []) (hc : s.c.st = .uninitialized ∨ s.c.st = .closed) (hf : s.c.fault = none)
    (ls : List Label) (hi : .init ∉ ls) (ha : ∀ t, ({} : Conf).step .init = some t → AsksInTime t ls) :
    (s.run (.init :: ls) = none ∧ ({} : Conf).run (.init :: ls) = none) ∨
    ∃ s' t, s.run (.init :: ls) = some s' ∧ ({} : Conf).run (.init :: ls) = some t ∧ AsNew s.c.log s' t := by
  have e1 := step_init hst hf
  have e2 : ({} : Conf).step .init = some ⟨({} : Conn).initialize, []⟩ := step_init rfl rfl
  simp only [Conf.run, e1, e2, Option.bind_some]
  rcases related_run s.c.log s.c.staleRead s.c ls ⟨s.c.initialize, []⟩ ⟨({} : Conn).initialize, []⟩ rfl (related_init s (headGone_reach h) hf hst (by rcases hc with e | e <;> rw [e] <;> simp)) hi (ha _ e2) with
    ⟨h1, h2⟩ | ⟨s', t, h1, h2, h3, h4⟩
  · exact .inl ⟨h1, h2⟩
  · exact .inr ⟨s', t, h2, h1, related_asNew _ _ _ h3 h4⟩

theorem reach_run_any (ls : List Label) : ∀ (s t : Conf), Reach (fun _ _ => True) s → s.run ls = some t → Reach (fun _ _ => True) t := by
  induction ls with
  | nil => intro s t h e; simp only [Conf.run, Option.some.injEq] at e; subst e; exact h
  | cons l ls ih =>
    intro s t h e
    simp only [Conf.run] at e
    cases hs : s.step l with
    | none => rw [hs] at e; cases e
    | some u => rw [hs] at e; exact ih u t (.step _ _ _ h trivial hs) e

/-- C73, `responseStatusCode()`: once a response to the new client was begun the status is that of the new object, too. -/
theorem C73_status (s t : Conf) (pre : List Ev) (hs : Reach (fun _ _ => True) s) (ht : Reach (fun _ _ => True) t) (h : AsNew pre s t) (hf : s.c.fault = none)
    (hh : heads t.c.log ≠ []) : s.c.status = t.c.status := by
  obtain ⟨hd, e⟩ : ∃ hd, (heads t.c.log).getLast? = some hd := by
    cases k : (heads t.c.log).getLast? with
    | none => exact absurd (List.getLast?_eq_none_iff.1 k) hh
    | some x => exact ⟨x, rfl⟩
  have e' : (heads s.c.log).getLast? = some hd := by
    rw [h.happened]
    unfold heads at e ⊢
    rw [List.filterMap_append, List.getLast?_append, e]; rfl
  rw [status_reach hs hf hd e', status_reach ht (by rw [← h.failed]; exact hf) hd e]

/-! ### the server -/

theorem accept_step {v v' : Server} (hs : v.step .accept = some v') : ∃ (i : Nat) (s s' : Conf),
    (v.conns[i]? = some s ∧ i ∈ v.reserved ∨ v.conns.length = i ∧ s = {}) ∧ s.stack = [] ∧ s.step .init = some s' ∧ v'.conns[i]? = some s' ∧
      ∀ j, j ≠ i → v'.conns[j]? = v.conns[j]? := by
  simp only [Server.step] at hs
  split at hs
  · rename_i hall
    rw [List.all_eq_true] at hall
    unfold Server.take at hs
    cases hr : v.reserved.getLast? with
    | none =>
      rw [hr] at hs
      simp only [List.getElem?_append_right (Nat.le_refl _), Nat.sub_self, List.getElem?_cons_zero] at hs
      cases hstep : Conf.step {} .init with
      | none => rw [hstep] at hs; cases hs
      | some s' =>
        rw [hstep] at hs
        simp only [Option.map_some, Option.some.injEq] at hs
        refine ⟨v.conns.length, {}, s', .inr ⟨rfl, rfl⟩, rfl, hstep, by rw [← hs]; simp [List.getElem?_set], ?_⟩
        intro j hj
        rw [← hs]
        simp only [List.getElem?_set, if_neg (Ne.symm hj), List.getElem?_append]
        split
        · rfl
        · rw [List.getElem?_eq_none (by simp; omega), List.getElem?_eq_none (by omega)]
    | some i =>
      rw [hr] at hs
      dsimp only at hs
      have hmem : i ∈ v.reserved := List.mem_of_getLast? hr
      cases hci : v.conns[i]? with
      | none => rw [hci] at hs; cases hs
      | some s =>
        rw [hci] at hs
        dsimp only at hs
        cases hstep : s.step .init with
        | none => rw [hstep] at hs; cases hs
        | some s' =>
          rw [hstep] at hs
          simp only [Option.map_some, Option.some.injEq] at hs
          have hlt : i < v.conns.length := (List.getElem?_eq_some_iff.1 hci).1
          refine ⟨i, s, s', .inl ⟨hci, hmem⟩, by simpa using hall s (List.mem_of_getElem? hci), hstep, by rw [← hs]; simp [List.getElem?_set, hlt], ?_⟩
          intro j hj
          rw [← hs]
          simp [List.getElem?_set, Ne.symm hj]
  · cases hs

theorem conn_moves {v v' : Server} {i : Nat} {l : Label} (hs : v.step (.conn i l) = some v') : l ≠ .init ∧ ∃ s s', v.conns[i]? = some s ∧ s.step l = some s' ∧
    v'.conns = v.conns.set i s' := by
  simp only [Server.step] at hs
  split at hs
  · cases hs
  · rename_i hl
    refine ⟨fun e => hl (.inl e), ?_⟩
    cases hci : v.conns[i]? with
    | none => rw [hci] at hs; cases hs
    | some s =>
      rw [hci] at hs
      dsimp only at hs
      cases hstep : s.step l with
      | none => rw [hstep] at hs; cases hs
      | some s' =>
        rw [hstep] at hs
        simp only [Option.map_some, Option.some.injEq] at hs
        refine ⟨s, s', rfl, hstep, ?_⟩
        rw [← hs]
        split
        · exact (shrink_spec _ _ (Nat.lt_succ_self _)).1.conns
        · rfl

theorem served_intime {v : Server} (h : ServedInTime v) : Served v := by
  induction h with
  | start => exact .start
  | step v v' l _ hp _ hs ih => exact .step v v' l ih hp hs

/-- Every connection of the server that has ever served is to its last client what a new object is after the same moves. -/
def AllAsNew (v : Server) : Prop := ∀ (i : Nat) (s : Conf), v.conns[i]? = some s → s.c.log ≠ [] →
  ∃ pre x o ls t b, ({} : Conf).run (.init :: ls) = some t ∧ .init ∉ ls ∧ s.stack = t.stack ∧ Related pre x o s.c t.c t.stack ∧ t.c.log = .init :: b ∧ .init ∉ b

theorem epoch_fold (b : List Ev) : ∀ acc, .init ∉ b → b.foldl (fun acc e => if e = .init then [] else acc ++ [e]) acc = acc ++ b := by
  induction b with
  | nil => intro acc _; simp
  | cons e b ih =>
    intro acc h
    simp only [List.mem_cons, not_or] at h
    rw [List.foldl_cons, if_neg (fun k => h.1 k.symm), ih _ h.2, List.append_assoc]; rfl

theorem epoch_after (pre b : List Ev) (h : .init ∉ b) : epoch (pre ++ .init :: b) = b := by
  rw [epoch, List.foldl_append, List.foldl_cons, if_pos rfl, epoch_fold b [] h, List.nil_append]

theorem run_snoc (ls : List Label) (l : Label) : ∀ (s t : Conf), s.run ls = some t → s.run (ls ++ [l]) = t.step l := by
  induction ls with
  | nil => intro s t h; simp only [Conf.run, Option.some.injEq] at h; subst h; simp only [List.nil_append, Conf.run]; cases s.step l <;> rfl
  | cons a ls ih =>
    intro s t h
    simp only [Conf.run, List.cons_append] at h ⊢
    cases e : s.step a with
    | none => rw [e] at h; cases h
    | some u => rw [e] at h; exact ih u t h

theorem allAsNew {v : Server} (h : ServedInTime v) : AllAsNew v := by
  induction h with
  | start =>
    intro i s hi hne
    have := List.eq_of_mem_replicate (List.mem_of_getElem? hi)
    subst this
    exact absurd rfl hne
  | step v v' l hv hp ha hs ih =>
    have hinv := svinv (served_intime hv)
    cases l with
    | accept =>
      obtain ⟨i, s, s', h1, h2, h3, h4, h5⟩ := accept_step hs
      intro j u hj hne
      by_cases hji : j = i
      · subst hji
        rw [h4] at hj; cases hj
        have hf := fault_none h3
        have hreach : Reach Gentle s ∧ ¬ Serving s.c.log := by
          rcases h1 with ⟨h1, hm⟩ | ⟨-, rfl⟩
          · exact ⟨(hinv.reach _ _ h1).1, (hinv.idle _ _ h1).1 (.inl hm)⟩
          · exact ⟨.start, serving_nil⟩
        have hst := ((can_init hreach.1 hreach.2 h2 hf).1 rfl).2
        rw [step_init h2 hf] at h3; cases h3
        exact ⟨_, _, _, [], ⟨({} : Conn).initialize, []⟩, [], rfl, by simp, rfl, related_init s (headGone_reach hreach.1) hf h2 (by rcases hst with e | e <;> rw [e] <;> simp), rfl, by simp⟩
      · rw [h5 j hji] at hj; exact ih j u hj hne
    | conn i l =>
      obtain ⟨hl, s, s', h1, h2, h3⟩ := conn_moves hs
      intro j u hj hne
      rw [h3, List.getElem?_set] at hj
      split at hj
      · rename_i hij
        subst hij
        rw [if_pos (List.getElem?_eq_some_iff.1 h1).1] at hj; cases hj
        obtain ⟨pre, x, o, ls, t, b, k1, k2, k3, k4, k5, k6⟩ := ih i s h1 (hp s h1).1
        have hlog := (related_asNew pre x o k3 k4).happened
        have hasks : UsesRequest l → readys t.c.log ≠ [] := by
          intro hu
          have := ha hu s h1
          rw [hlog, k5, epoch_after _ _ k6] at this
          rw [k5]
          simpa [readys, Ev.request] using this
        rcases related_step pre x o s t l k3 k4 hl hasks with ⟨m1, -⟩ | ⟨s2, t2, m1, m2, m3, m4⟩
        · rw [m1] at h2; cases h2
        · rw [m2] at h2; cases h2
          rcases step_one hl m1 with e | ⟨ev, hev, e⟩
          · exact ⟨pre, x, o, ls ++ [l], t2, b, by rw [← List.cons_append, run_snoc _ _ _ _ k1, m1], by simp [k2, Ne.symm hl], m3, m4, by rw [e, k5], k6⟩
          · exact ⟨pre, x, o, ls ++ [l], t2, b ++ [ev], by rw [← List.cons_append, run_snoc _ _ _ _ k1, m1], by simp [k2, Ne.symm hl], m3, m4, by rw [e, k5]; rfl, by simp [k6, Ne.symm hev]⟩
      · exact ih j u hj hne

/-- C73, the server: at every moment of every history, each connection that serves a client is to that client what a newly constructed connection object would be that has seen nobody
else: there is a run of a new object in which the same happened as has happened since this client connected, and the two show the same request and go on in the same way. -/
theorem C73_server_partial (v : Server) (h : ServedInTime v) (i : Nat) (s : Conf) (hi : v.conns[i]? = some s) (hs : Serving s.c.log) :
    ∃ (pre : List Ev) (ls : List Label) (t : Conf), ({} : Conf).run (.init :: ls) = some t ∧ .init ∉ ls ∧ t.c.log = .init :: epoch s.c.log ∧ AsNew pre s t := by
  have hne : s.c.log ≠ [] := by rintro e; rw [e] at hs; exact serving_nil hs
  obtain ⟨pre, x, o, ls, t, b, k1, k2, k3, k4, k5, k6⟩ := allAsNew h i s hi hne
  have k := related_asNew pre x o k3 k4
  refine ⟨pre, ls, t, k1, k2, ?_, k⟩
  rw [k.happened, k5, epoch_after _ _ k6]

/-- Every connection of a server is one the other theorems speak about. -/
theorem C73_connections (v : Server) (h : Served v) (i : Nat) (s : Conf) (hi : v.conns[i]? = some s) : Reach Gentle s := ((svinv h).reach i s hi).1

/-! ### concrete cases -/

/-- A client asks, is answered and leaves; the object is free again. -/
def firstClient : List Label := [.init, .recv b!"GET /a?token=secret HTTP/1.0\r\n\r\n", .call .processInput] ++ taus 3 ++
  [.readParams, .call (.writeResponse 200 [] b!"x")] ++ taus 7 ++ [.ret] ++ taus 4 ++ [.ret] ++ taus 2 ++ [.ret, .bytesWritten 1000] ++ taus 4 ++ [.ret] ++ taus 1

/-- The next one asks for something else. -/
def secondClient : List Label := [.recv b!"GET /b?x=1 HTTP/1.1\r\n\r\n", .call .processInput] ++ taus 3 ++ [.readParams]

instance : (l : Label) → Decidable (UsesRequest l)
  | .readParams | .setParam _ _ | .readDecoded _ => isTrue trivial
  | .tau _ | .call _ | .ret | .recv _ | .bytesWritten _ | .init => isFalse id

def asksRun (t : Conf) : List Label → Bool
  | [] => true
  | l :: ls => (decide (UsesRequest l → readys t.c.log ≠ [])) && (match t.step l with | none => true | some t' => asksRun t' ls)

theorem asks_of_run : ∀ (ls : List Label) (t : Conf), asksRun t ls = true → AsksInTime t ls
  | [], t, _ => by intro a l b t' e; cases a <;> cases e
  | l :: ls, t, h => by
    simp only [asksRun, Bool.and_eq_true, decide_eq_true_eq] at h
    intro a l' b t' e hu hr
    cases a with
    | nil =>
      simp only [List.nil_append, List.cons.injEq] at e
      simp only [Conf.run, Option.some.injEq] at hr
      subst hr; rw [← e.1] at hu; exact h.1 hu
    | cons a0 a =>
      simp only [List.cons_append, List.cons.injEq] at e
      obtain ⟨rfl, e⟩ := e
      simp only [Conf.run] at hr
      cases hs : t.step l with
      | none => rw [hs] at hr; cases hr
      | some u => rw [hs] at hr h; exact asks_of_run ls u h.2 a l' b t' e hu hr

/-- The hypotheses of `C73_as_new_partial` are met by an object that has served a request, and the next client's request is shown, with its own parameters. -/
example : ∃ s s' : Conf, Reach Proper s ∧ s.stack = [] ∧ s.c.st = .closed ∧ s.c.fault = none ∧ s.c.req.query = b!"token=secret" ∧
    (∀ t, ({} : Conf).step .init = some t → AsksInTime t secondClient) ∧ s.run (.init :: secondClient) = some s' ∧ s'.c.params = [(b!"x", b!"1")] ∧ s'.c.req.query = b!"x=1" := by
  obtain ⟨s, h1, h2⟩ := exists_of_endsIn (allowed := Proper) (ls := firstClient)
    (p := fun s => decide (s.stack = [] ∧ s.c.st = .closed ∧ s.c.fault = none ∧ s.c.req.query = b!"token=secret") &&
      (match s.run (.init :: secondClient) with | some s' => decide (s'.c.params = [(b!"x", b!"1")] ∧ s'.c.req.query = b!"x=1") | none => false)) (by decide +kernel)
  simp only [Bool.and_eq_true, decide_eq_true_eq] at h2
  obtain ⟨⟨a1, a2, a3, a4⟩, h2⟩ := h2
  split at h2
  · rename_i s' e
    simp only [decide_eq_true_eq] at h2
    refine ⟨s, s', h1, a1, a2, a3, a4, ?_, e, h2.1, h2.2⟩
    intro t ht
    refine asks_of_run _ _ ?_
    have hk : (match ({} : Conf).step .init with | some t => asksRun t secondClient | none => false) = true := by decide +kernel
    rw [ht] at hk; exact hk
  · cases h2

/-- If the application asks the connection for the request parameters after the next client connected but before its first request arrived, it gets the previous client's, and
they stay: when the new client's request `/b?x=1` is handed out, its parameters are those of the other client (`token=secret`), where a new object would say `x=1`. -/
theorem C73_violation : ∃ s s' t : Conf, Reach Proper s ∧ s.stack = [] ∧ s.c.st = .closed ∧ s.run (.init :: .readParams :: secondClient) = some s' ∧
    ({} : Conf).run (.init :: .readParams :: secondClient) = some t ∧ s'.c.req = t.c.req ∧ t.c.params = [(b!"x", b!"1")] ∧ s'.c.params = [(b!"token", b!"secret")] := by
  obtain ⟨s, h1, h2⟩ := exists_of_endsIn (allowed := Proper) (ls := firstClient)
    (p := fun s => decide (s.stack = [] ∧ s.c.st = .closed) &&
      (match s.run (.init :: .readParams :: secondClient), ({} : Conf).run (.init :: .readParams :: secondClient) with
       | some s', some t => decide (s'.c.req = t.c.req ∧ t.c.params = [(b!"x", b!"1")] ∧ s'.c.params = [(b!"token", b!"secret")])
       | _, _ => false)) (by decide +kernel)
  simp only [Bool.and_eq_true, decide_eq_true_eq] at h2
  obtain ⟨⟨a1, a2⟩, h2⟩ := h2
  split at h2
  · rename_i s' t e1 e2
    simp only [decide_eq_true_eq] at h2
    exact ⟨s, s', t, h1, a1, a2, e1, e2, h2.1, h2.2.1, h2.2.2⟩
  · cases h2

instance (v : Server) : (l : SLabel) → Decidable (AsksServing v l)
  | .accept => isTrue trivial
  | .conn i l =>
    if hu : UsesRequest l then
      match h : v.conns[i]? with
      | none => isTrue (fun _ s hs => by rw [h] at hs; cases hs)
      | some s => if k : readys (epoch s.c.log) ≠ [] then isTrue (fun _ t ht => by rw [h] at ht; cases ht; exact k) else isFalse (fun p => k (p hu s h))
    else isTrue (fun k => absurd k hu)

def timelyRun (v : Server) : List SLabel → Option Server
  | [] => some v
  | l :: ls => if Polite v l ∧ AsksServing v l then (v.step l).bind (timelyRun · ls) else none

theorem served_timely : ∀ (ls : List SLabel) (v w : Server), ServedInTime v → timelyRun v ls = some w → ServedInTime w
  | [], v, w, h, e => by simp [timelyRun] at e; subst e; exact h
  | l :: ls, v, w, h, e => by
    simp only [timelyRun] at e
    split at e
    · rename_i hp
      cases hs : v.step l with
      | none => rw [hs] at e; cases e
      | some v' => rw [hs] at e; exact served_timely ls v' w (.step v v' l h hp.1 hp.2 hs) e
    · cases e

/-- A server one of whose connections serves its second client. -/
example : ∃ v s, ServedInTime v ∧ v.conns[24]? = some s ∧ Serving s.c.log ∧ (readys s.c.log).length = 2 ∧ s.c.params = [(b!"x", b!"1")] := by
  have h : (match timelyRun .create (.accept :: firstClient.tail.map (.conn 24) ++ .accept :: secondClient.map (.conn 24)) with
    | none => false
    | some v => match v.conns[24]? with
      | none => false
      | some s => decide ((readys s.c.log).length = 2 ∧ s.c.params = [(b!"x", b!"1")] ∧ 24 ∉ v.reserved ∧ 24 ∉ v.deleted)) = true := by decide +kernel
  split at h
  · cases h
  · rename_i v hv
    have hserved := served_timely _ _ _ .start hv
    split at h
    · cases h
    · rename_i s hs
      simp only [decide_eq_true_eq] at h
      refine ⟨v, s, hserved, hs, ?_, h.1, h.2.1⟩
      have := mt ((svinv (served_intime hserved)).idle _ _ hs).2 (by simp [h.2.2.1, h.2.2.2])
      simpa using this

end Pillow.Props
