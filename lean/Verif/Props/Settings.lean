import Verif.Spec.Settings
import Verif.Lemmas.LogStep
import Verif.Props.Params
import Verif.Props.Router
/-!
# C79: the parameters of a request, and what handlers set among them
-/
namespace Pillow.Props
open Pillow Pillow.Spec

theorem readys_write_none (d : Conn) (e : Ev) (he : Ev.request e = none) : readys (d.write e).log = readys d.log := by
  unfold Conn.write; split
  · rfl
  · show readys (d.log ++ [e]) = _
    rw [readys_snoc, he]; simp

theorem readys_write_of {a : List Ev} (d : Conn) (e : Ev) (he : Ev.request e = none) (ha : d.log = a) : readys (d.write e).log = readys a :=
  ha ▸ readys_write_none d e he

theorem exec_readys (k : Nat) (i : Instr) (c : Conn) (h : i ≠ .sendHeaders) : readys (exec k i c).1.log = readys c.log := by
  cases i with
  | env => rfl
  | processInput =>
    simp only [exec, Conn.processInput]
    repeat' split
    all_goals simp [Conn.fill, Conn.parse]
  | recvContent =>
    simp only [exec, Conn.recvContent]
    repeat' split
    all_goals first | rfl | exact readys_write_of _ _ rfl rfl
  | sendHeaders => exact absurd rfl h
  | sendContent =>
    simp only [exec, Conn.sendContent]
    repeat' split
    all_goals first | rfl | exact congrArg readys (log_view _)
  | sendContentRest => simp only [exec, Conn.sendContentRest]; split <;> rfl
  | completed =>
    simp only [exec, Conn.complete]
    split
    · rfl
    · show readys (c.log ++ [.completed]) = _
      rw [readys_snoc]; simp [Ev.request]
  | completedRest => simp only [exec, Conn.completedRest]; split <;> rfl
  | completedRest2 => simp only [exec, Conn.completedRest2, Conn.toReceivingHeaders]; split <;> rfl
  | flush => simp only [exec, Conn.flush]; repeat' split
             all_goals rfl
  | drain => simp only [exec, Conn.drain]; split <;> rfl
  | drainRest => simp only [exec, Conn.drainRest]; repeat' split
                 all_goals rfl
  | flushing => simp only [exec, Conn.toFlushing]; split <;> rfl
  | flushingRest => simp only [exec, Conn.flushingRest]; repeat' split
                    all_goals rfl
  | closed f =>
    simp only [exec, Conn.toClosed]
    split
    · rfl
    · simp only [Conn.emit]
      rw [readys_snoc]; simp [Ev.request]
  | closedRest => rfl
  | errorResponse code =>
    simp only [exec, Conn.errorResponse]
    split
    · rfl
    · exact readys_write_none _ _ rfl
  | writeResponse st hs ct => simp only [exec, Conn.writeResponse]; split <;> rfl
  | writeResponseRest ct =>
    simp only [exec, Conn.writeResponseRest]
    repeat' split
    all_goals first | rfl | exact congrArg readys (log_view _)
  | writeHeaders st hs =>
    simp only [exec, Conn.writeHeaders]
    repeat' split
    · rfl
    · exact congrArg readys (log_view _)
    · exact readys_write_of _ _ rfl (log_view _)
  | writeContent ct =>
    simp only [exec, Conn.writeContent]
    split
    · rfl
    split
    · rfl
    split
    · rfl
    split
    · split
      · exact congrArg readys (log_view _)
      · split <;> split <;> exact readys_write_of _ _ rfl (log_view _)
    · rfl
  | endContent =>
    simp only [exec, Conn.endContent]
    repeat' split
    all_goals first | rfl | exact readys_write_none _ _ rfl

/-- Setting one after the other. -/
def setEach (ps sets : List (Bytes × Bytes)) : List (Bytes × Bytes) := sets.foldl (fun ps p => paramSet ps p.1 p.2) ps

/-- The parameters are those of the request with what has been set; they are there only while it is being handled or completed. -/
def SetInv (c : Conn) (sets : List (Bytes × Bytes)) : Prop :=
  (c.params ≠ [] → c.params = setEach (parseParams c.req.query) sets ∧ c.st ≠ .uninitialized ∧ c.st ≠ .receivingHeaders ∧ c.st ≠ .receivingContent ∧
    (c.st = .completed → c.viewsValid = true)) ∧
  (c.params = [] → c.st = .sendingHeaders ∨ c.st = .sendingContent → sets = [])

theorem setInv_foot {c c' : Conn} {sets : List (Bytes × Bytes)} (hf : Foot c c') (h : SetInv c sets) (hst : c.params ≠ [] → c'.st ≠ .uninitialized ∧ c'.st ≠ .receivingHeaders ∧
    c'.st ≠ .receivingContent ∧ (c'.st = .completed → c.viewsValid = true))
    (h2 : c'.st = .sendingHeaders ∨ c'.st = .sendingContent → c.st = .sendingHeaders ∨ c.st = .sendingContent) : SetInv c' sets := by
  unfold SetInv
  rw [hf.params, hf.req, hf.views]
  exact ⟨fun hp => ⟨(h.1 hp).1, (hst hp).1, (hst hp).2.1, (hst hp).2.2.1, (hst hp).2.2.2⟩, fun hp hs => h.2 hp (h2 hs)⟩

theorem setInv_same {c c' : Conn} {sets : List (Bytes × Bytes)} (hf : Foot c c') (hst : c'.st = c.st) (h : SetInv c sets) : SetInv c' sets :=
  setInv_foot hf h (fun hp => by rw [hst]; exact (h.1 hp).2) (by rw [hst]; exact id)

/-- The invariant is kept by the object itself; handing out a request begins anew. -/
theorem setInv_exec {k : Nat} {i : Instr} {c : Conn} {rest : List Instr} {sets : List (Bytes × Bytes)} (hc : Core false c (i :: rest)) (h : SetInv c sets) :
    SetInv (exec k i c).1 (if i = .sendHeaders then [] else sets) := by
  obtain ⟨ph, -, hdata⟩ := hc.data
  rw [List.head?_cons] at hdata
  by_cases h1 : i = .sendHeaders
  · subst h1
    rw [if_pos rfl]
    have hst : c.st = .receivingContent := hdata.1
    have hp : c.params = [] := by
      apply Classical.byContradiction
      intro hp; exact (h.1 hp).2.2.2.1 hst
    have hn : (exec k .sendHeaders c).1.params = [] := by
      show (c.sendHeaders).1.params = []
      unfold Conn.sendHeaders
      rw [if_neg (by rw [hst]; simp)]
      simp only [Conn.emit, Conn.setup]
      split <;> exact hp
    exact ⟨fun hne => absurd hn hne, fun _ _ => rfl⟩
  rw [if_neg h1]
  by_cases h2 : i = .completedRest
  · subst h2
    have hn : (exec k .completedRest c).1.params = [] := by
      show (c.completedRest).1.params = []
      unfold Conn.completedRest
      dsimp only
      split <;> rfl
    refine ⟨fun hne => absurd hn hne, fun _ hs => ?_⟩
    have hsn := hc.sens
    rw [List.head?_cons, List.filter_cons, if_pos (by rfl)] at hsn
    have hst : c.st = .completed := by
      unfold sensOk at hsn
      rw [if_neg (by simp)] at hsn
      cases hst : c.st <;> rw [hst] at hsn <;> simp at hsn ⊢
    have : (exec k .completedRest c).1.st = c.st := by
      show (c.completedRest).1.st = c.st
      unfold Conn.completedRest
      dsimp only
      split <;> rfl
    rw [this, hst] at hs
    rcases hs with hs | hs <;> cases hs
  have hf := exec_foot k i c h1 h2
  rcases exec_st k i c with e | ⟨rfl, e⟩ | ⟨rfl, e⟩ | ⟨rfl, e⟩ | ⟨rfl, e⟩ | ⟨rfl, e⟩ | ⟨rfl, e⟩ | ⟨⟨f, rfl⟩, e⟩
  · exact setInv_same hf e h
  · have hst : c.st = .receivingHeaders := hdata.1
    exact setInv_foot hf h (fun hp => absurd hst (h.1 hp).2.2.1) (by rw [e]; simp)
  · exact absurd rfl h1
  · have hst : c.st = .sendingHeaders := hdata.1
    exact setInv_foot hf h (fun hp => by rw [e]; simp) (fun _ => .inl hst)
  · have hv : c.viewsValid = true := hdata.2.2.1
    exact setInv_foot hf h (fun hp => by rw [e]; simp [hv]) (by rw [e]; simp)
  · have hs := hc.sens
    rw [List.head?_cons, List.filter_cons, if_pos (by rfl)] at hs
    have : c.st = .completed ∧ c.viewsValid = false := by
      unfold sensOk at hs
      rw [if_neg (by simp)] at hs
      cases hst : c.st <;> rw [hst] at hs <;> simp at hs ⊢
      cases hv : c.viewsValid
      · rfl
      · simp [hv] at hs
    exact setInv_foot hf h (fun hp => by
      have := (h.1 hp).2.2.2.2 this.1
      simp_all) (by rw [e]; simp)
  · exact setInv_foot hf h (fun hp => by rw [e]; simp) (by rw [e]; simp)
  · exact setInv_foot hf h (fun hp => by rw [e]; simp) (by rw [e]; simp)

theorem step_readys {s s' : Conf} {l : Label} (hl : ∀ k, l ≠ .tau k) (h : s.step l = some s') : readys s'.c.log = readys s.c.log := by
  by_cases hi : l = .init
  · subst hi
    rw [init_log h, readys_snoc]; simp [Ev.request]
  rcases step_one hi h with e | ⟨e, -, e'⟩
  · rw [e]
  · unfold Conf.step at h
    split at h
    · cases h
    cases l with
    | tau k => exact absurd rfl (hl k)
    | call a => dsimp only at h; split at h <;> cases h; rfl
    | ret => dsimp only at h; split at h <;> cases h; rfl
    | recv bs =>
      dsimp only at h
      split at h
      · split at h <;> cases h
        simp only [Conn.emit]
        rw [readys_snoc]; simp [Ev.request]
      · cases h
    | bytesWritten k =>
      dsimp only at h
      split at h
      · split at h <;> cases h
        rfl
      · cases h
    | init => exact absurd rfl hi
    | readParams => dsimp only at h; split at h <;> cases h; simp only [Conn.requestParams]; split <;> rfl
    | setParam n v => dsimp only at h; split at h <;> cases h; simp only [Conn.setRequestParam, Conn.requestParams]; split <;> rfl
    | readDecoded d =>
      dsimp only at h
      split at h <;> cases h
      cases d <;> simp only [Conn.readDecoded] <;> split <;> rfl

theorem nowSet_same {s s' : Conf} {l : Label} {sets : List (Bytes × Bytes)} (h : readys s'.c.log = readys s.c.log) (hl : ∀ n v, l ≠ .setParam n v) : nowSet s s' l sets = sets := by
  unfold nowSet
  rw [if_neg (by rw [h]; simp)]
  cases l <;> first | rfl | exact absurd rfl (hl _ _)

theorem setInv_step {s s' : Conf} {l : Label} {sets : List (Bytes × Bytes)} (hc : Core false s.c s.stack) (h : SetInv s.c sets) (ha : UsesInTime s l)
    (hs : s.step l = some s') : SetInv s'.c (nowSet s s' l sets) := by
  cases l with
  | tau k =>
    unfold Conf.step at hs
    split at hs
    · cases hs
    dsimp only at hs
    split at hs
    · cases hs
    · cases hs
    · rename_i i rest hne he
      simp only [Option.some.injEq] at hs
      subst hs
      rw [he] at hc
      have := setInv_exec (k := k) hc h
      by_cases h1 : i = .sendHeaders
      · subst h1
        rw [if_pos rfl] at this
        have hn : nowSet s ⟨(exec k .sendHeaders s.c).1, (exec k .sendHeaders s.c).2 ++ rest⟩ (.tau k) sets = [] := by
          unfold nowSet
          rw [if_pos]
          obtain ⟨ph, -, hdata⟩ := hc.data
          rw [List.head?_cons] at hdata
          have hst : s.c.st = .receivingContent := hdata.1
          have hlog : ∃ r, (exec k .sendHeaders s.c).1.log = s.c.log ++ [.ready r] := by
            show ∃ r, (s.c.sendHeaders).1.log = _
            unfold Conn.sendHeaders
            rw [if_neg (by rw [hst]; simp)]
            simp only [Conn.emit, Conn.setup]
            split <;> exact ⟨_, rfl⟩
          obtain ⟨r, hlog⟩ := hlog
          show (readys (exec k .sendHeaders s.c).1.log).length ≠ _
          rw [hlog, readys_snoc]
          simp [Ev.request]
        rw [hn]; exact this
      · rw [if_neg h1] at this
        rw [nowSet_same (exec_readys k i s.c h1) (by simp)]
        exact this
  | setParam n v =>
    have hr := step_readys (by simp) hs
    unfold Conf.step at hs
    split at hs
    · cases hs
    dsimp only at hs
    split at hs
    · simp only [Option.some.injEq] at hs
      subst hs
      have hn : nowSet s ⟨s.c.setRequestParam n v, s.stack⟩ (.setParam n v) sets = sets ++ [(n, v)] := by
        unfold nowSet
        rw [if_neg (by rw [hr]; simp)]
      rw [hn]
      have hst := ha.2 (.inr ⟨n, v, rfl⟩)
      have hpar : s.c.requestParams.params = setEach (parseParams s.c.req.query) sets ∧ s.c.requestParams.req = s.c.req ∧ s.c.requestParams.st = s.c.st := by
        unfold Conn.requestParams
        split
        · rename_i hp
          rw [h.2 hp.1 hst]
          exact ⟨rfl, rfl, rfl⟩
        · rename_i hp
          refine ⟨?_, rfl, rfl⟩
          by_cases hpe : s.c.params = []
          · have : s.c.req.query = [] := by
              apply Classical.byContradiction; intro hq; exact hp ⟨hpe, hq⟩
            rw [h.2 hpe hst, hpe, this, parseParams_nil]; rfl
          · exact (h.1 hpe).1
      refine ⟨fun _ => ⟨?_, ?_⟩, fun hp => absurd hp (paramSet_ne _ _ _)⟩
      · show paramSet s.c.requestParams.params n v = setEach (parseParams s.c.requestParams.req.query) _
        rw [hpar.1, hpar.2.1, setEach, setEach, List.foldl_append]; rfl
      · show s.c.requestParams.st ≠ _ ∧ s.c.requestParams.st ≠ _ ∧ s.c.requestParams.st ≠ _ ∧ (s.c.requestParams.st = _ → _)
        rw [hpar.2.2]
        rcases hst with e | e <;> simp [e]
    · cases hs
  | readParams =>
    rw [nowSet_same (step_readys (by simp) hs) (by simp)]
    unfold Conf.step at hs
    split at hs
    · cases hs
    dsimp only at hs
    split at hs
    · simp only [Option.some.injEq] at hs
      subst hs
      have hst := ha.2 (.inl rfl)
      show SetInv s.c.requestParams sets
      unfold Conn.requestParams
      split
      · rename_i hp
        rw [h.2 hp.1 hst]
        exact ⟨fun hp => ⟨rfl, by rcases hst with e | e <;> simp [e]⟩, fun _ _ => rfl⟩
      · exact h
    · cases hs
  | readDecoded x =>
    rw [nowSet_same (step_readys (by simp) hs) (by simp)]
    unfold Conf.step at hs
    split at hs
    · cases hs
    dsimp only at hs
    split at hs
    · simp only [Option.some.injEq] at hs
      subst hs
      show SetInv (s.c.readDecoded x) sets
      unfold Conn.readDecoded
      unfold SetInv at *
      cases x <;> dsimp only <;> split <;> exact h
    · cases hs
  | init =>
    rw [nowSet_same (step_readys (by simp) hs) (by simp)]
    unfold Conf.step at hs
    split at hs
    · cases hs
    dsimp only at hs
    split at hs
    · simp only [Option.some.injEq] at hs
      subst hs
      have hp : (Conn.initialize s.c).params = [] ∧ (Conn.initialize s.c).st = .receivingHeaders := by
        unfold Conn.initialize Conn.toReceivingHeaders Conn.emit
        dsimp only
        split
        · rename_i e; exact ⟨rfl, e⟩
        · exact ⟨rfl, rfl⟩
      exact ⟨fun hne => absurd hp.1 hne, fun _ hst => by
        rw [show (⟨s.c.initialize, s.stack⟩ : Conf).c.st = (Conn.initialize s.c).st from rfl, hp.2] at hst
        rcases hst with e | e <;> cases e⟩
    · cases hs
  | call a =>
    rw [nowSet_same (step_readys (by simp) hs) (by simp)]
    unfold Conf.step at hs
    split at hs
    · cases hs
    dsimp only at hs
    split at hs
    · simp only [Option.some.injEq] at hs; subst hs; exact h
    · cases hs
  | ret =>
    rw [nowSet_same (step_readys (by simp) hs) (by simp)]
    unfold Conf.step at hs
    split at hs
    · cases hs
    dsimp only at hs
    split at hs
    · simp only [Option.some.injEq] at hs; subst hs; exact h
    · cases hs
  | recv bs =>
    rw [nowSet_same (step_readys (by simp) hs) (by simp)]
    unfold Conf.step at hs
    split at hs
    · cases hs
    dsimp only at hs
    split at hs
    · split at hs
      · simp only [Option.some.injEq] at hs; subst hs
        exact setInv_same (c := s.c) ⟨rfl, rfl, rfl, rfl, rfl, rfl, rfl⟩ rfl h
      · cases hs
    · cases hs
  | bytesWritten k =>
    rw [nowSet_same (step_readys (by simp) hs) (by simp)]
    unfold Conf.step at hs
    split at hs
    · cases hs
    dsimp only at hs
    split at hs
    · split at hs
      · simp only [Option.some.injEq] at hs; subst hs
        exact setInv_same (c := s.c) ⟨rfl, rfl, rfl, rfl, rfl, rfl, rfl⟩ rfl h
      · cases hs
    · cases hs

theorem history_gentle {s : Conf} {sets : List (Bytes × Bytes)} (h : History s sets) : Reach Gentle s := by
  induction h with
  | start => exact .start
  | step s s' l sets _ ha hs ih => exact .step s s' l ih ha.1 hs

theorem history_reach {s : Conf} {sets : List (Bytes × Bytes)} (h : History s sets) : Reach Proper s := reach_mono (fun _ _ h => h.1) (history_gentle h)

theorem setInv_history {s : Conf} {sets : List (Bytes × Bytes)} (h : History s sets) : SetInv s.c sets := by
  induction h with
  | start => exact ⟨fun hp => absurd rfl hp, fun _ _ => rfl⟩
  | step s s' l sets hr ha hs ih =>
    rcases inv_reach (lo := false) (history_gentle hr) with hc | ⟨hc, -⟩
    · exact setInv_step hc ih ha hs
    · unfold Conf.step at hs
      rw [if_pos (by rw [hc]; rfl)] at hs
      cases hs

theorem lookup_find (ps : List (Bytes × Bytes)) (name : Bytes) : paramLookup ps name = ((ps.find? fun p => decide (SameCI p.1 name)).map (·.2)).getD [] := by
  induction ps with
  | nil => rfl
  | cons p ps ih =>
    have hcmp : paramNameEq p.1 name = true ↔ SameCI p.1 name := C03_equals_iff _ _
    simp only [paramLookup, List.find?_cons]
    by_cases h : SameCI p.1 name
    · rw [if_pos (hcmp.2 h)]; simp [h]
    · rw [if_neg (fun e => h (hcmp.1 e))]; simp [h, ih]

theorem setEach_lookup (ps sets : List (Bytes × Bytes)) (name : Bytes) : paramLookup (setEach ps sets) name = valueOf ps sets name := by
  have key : ∀ (rev : List (Bytes × Bytes)), paramLookup (setEach ps rev.reverse) name = valueOf ps rev.reverse name := by
    intro rev
    induction rev with
    | nil => simp only [List.reverse_nil, setEach, List.foldl_nil, valueOf, List.filter_nil, List.getLast?_nil]; exact lookup_find ps name
    | cons p rev ih =>
      have hfold : setEach ps (p :: rev).reverse = paramSet (setEach ps rev.reverse) p.1 p.2 := by
        simp [setEach, List.foldl_append]
      obtain ⟨k1, k2⟩ := C27_lookup (setEach ps rev.reverse) p.1 p.2
      rw [hfold]
      by_cases h : SameCI p.1 name
      · have hb : paramNameEq p.1 name = true := (C03_equals_iff _ _).2 h
        have e : paramLookup (paramSet (setEach ps rev.reverse) p.1 p.2) name = paramLookup (paramSet (setEach ps rev.reverse) p.1 p.2) p.1 := by
          rw [lookup_find, lookup_find]
          congr 2
          have : (fun q : Bytes × Bytes => decide (SameCI q.1 name)) = fun q => decide (SameCI q.1 p.1) := by
            funext q
            simp only [decide_eq_decide]
            exact ⟨fun k => k.trans h.symm, fun k => k.trans h⟩
          rw [this]
        rw [e, k1, valueOf]
        simp [List.filter_append, h]
      · rw [k2 name (fun e => h e.symm), ih, valueOf, valueOf]
        simp [List.filter_append, h]
  have := key sets.reverse
  rwa [List.reverse_reverse] at this

/-- **C79**: whatever has happened on the connection, and whatever parameters handlers have set for this and earlier requests, while a request is being handled the value of each
parameter is the last one set for this request under its name, else the one in the query of this request. -/
theorem C79_values (s : Conf) (sets : List (Bytes × Bytes)) (hr : History s sets) (r : ReqView) (hh : Handling s r) :
    ∃ query, ParamsOf r.query query ∧ ∀ name, (s.c.requestParamValue name).1 = valueOf query sets name := by
  have hinv := setInv_history hr
  obtain ⟨hq, -⟩ := handling_req (history_reach hr) hh
  refine ⟨parseParams r.query, (paramsOf_iff _ _).2 rfl, fun name => ?_⟩
  rw [← setEach_lookup]
  show paramLookup s.c.requestParams.params name = _
  congr 1
  rw [← hq]
  unfold Conn.requestParams
  split
  · rename_i hp
    rw [hinv.2 hp.1 hh.2.2.1]; rfl
  · rename_i hp
    by_cases hpe : s.c.params = []
    · have : s.c.req.query = [] := by
        apply Classical.byContradiction; intro hq; exact hp ⟨hpe, hq⟩
      rw [hinv.2 hpe hh.2.2.1, hpe, this, parseParams_nil]; rfl
    · exact (hinv.1 hpe).1

end Pillow.Props
