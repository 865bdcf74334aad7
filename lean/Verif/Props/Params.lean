import Verif.Props.Flow
import Verif.Lemmas.Footprint
set_option linter.unusedSimpArgs false
set_option linter.unusedVariables false
/-!
# C26, C27, C28: query parameters and decoded accessors
-/
namespace Pillow.Props
open Pillow Pillow.Spec

/-! ### C26 -/

/-- One item of a query string: the name up to the first `=`, the value behind it; both percent-decoded (C04). -/
inductive ItemMeans : Bytes → Bytes × Bytes → Prop where
  | pair (k v : Bytes) : 61 ∉ k → ItemMeans (k ++ 61 :: v) (percentDecode k, percentDecode v)
  | bare (k : Bytes) : 61 ∉ k → ItemMeans k (percentDecode k, [])

/-- `ParamsOf q ps`: the query string `q` means the parameters `ps`: its items are separated by `&`; an `&` at the very end does not
start another item. -/
inductive ParamsOf : Bytes → List (Bytes × Bytes) → Prop where
  | empty : ParamsOf [] []
  | last (item : Bytes) (p : Bytes × Bytes) : item ≠ [] → 38 ∉ item → ItemMeans item p → ParamsOf item [p]
  | more (item rest : Bytes) (p : Bytes × Bytes) (ps : List (Bytes × Bytes)) : 38 ∉ item → ItemMeans item p → ParamsOf rest ps →
      ParamsOf (item ++ 38 :: rest) (p :: ps)

theorem splitAt_append (d : Byte) (a b : Bytes) (h : d ∉ a) : splitAt d (a ++ d :: b) = (a, some b) := by
  induction a with
  | nil => simp [splitAt]
  | cons x a ih =>
    simp at h
    have : ¬ x = d := fun e => h.1 e.symm
    simp [splitAt, this, ih h.2]

theorem splitAt_none (d : Byte) (a : Bytes) (h : d ∉ a) : splitAt d a = (a, none) := by
  induction a with
  | nil => simp [splitAt]
  | cons x a ih =>
    simp at h
    have : ¬ x = d := fun e => h.1 e.symm
    simp [splitAt, this, ih h.2]

theorem splitAt_cases (d : Byte) (a : Bytes) : d ∉ a ∨ ∃ x y, a = x ++ d :: y ∧ d ∉ x := by
  induction a with
  | nil => simp
  | cons b a ih =>
    by_cases h : b = d
    · exact .inr ⟨[], a, by simp [h], by simp⟩
    · rcases ih with ih | ⟨x, y, rfl, hx⟩
      · exact .inl (by simp [ih, Ne.symm h])
      · exact .inr ⟨b :: x, y, rfl, by simp [hx, Ne.symm h]⟩

theorem paramOf_means (item : Bytes) : ∀ p, ItemMeans item p ↔ p = paramOf item := by
  intro p
  constructor
  · rintro (⟨k, v, h⟩ | ⟨_, h⟩)
    · simp [paramOf, splitAt_append _ _ _ h]
    · simp [paramOf, splitAt_none _ _ h]
  · rintro rfl
    rcases splitAt_cases 61 item with h | ⟨k, v, rfl, h⟩
    · simp only [paramOf, splitAt_none _ _ h]; exact .bare _ h
    · simp only [paramOf, splitAt_append _ _ _ h]; exact .pair _ _ h

theorem parseParams_nil : parseParams [] = [] := by rw [parseParams]; simp

theorem parseParams_last (q : Bytes) (h : 38 ∉ q) (hne : q ≠ []) : parseParams q = [paramOf q] := by
  rw [parseParams]
  rw [if_neg hne]
  split
  · rename_i e; rw [splitAt_none _ _ h] at e; cases e
  · rename_i e; rw [splitAt_none _ _ h] at e; cases e; rfl

theorem parseParams_more (item rest : Bytes) (h : 38 ∉ item) : parseParams (item ++ 38 :: rest) = paramOf item :: parseParams rest := by
  rw [parseParams]
  rw [if_neg (by simp)]
  split
  · rename_i e; rw [splitAt_append _ _ _ h] at e; cases e; rfl
  · rename_i e; rw [splitAt_append _ _ _ h] at e; cases e

/-- What the parser computes is what the query string means. -/
theorem paramsOf_iff (q : Bytes) (ps : List (Bytes × Bytes)) : ParamsOf q ps ↔ ps = parseParams q := by
  constructor
  · intro h
    induction h with
    | empty => rw [parseParams_nil]
    | last item p h1 h2 h3 => rw [parseParams_last item h2 h1, (paramOf_means _ _).1 h3]
    | more item rest p ps h1 h2 _ ih => rw [parseParams_more item rest h1, (paramOf_means _ _).1 h2, ih]
  · rintro rfl
    induction h : q.length using Nat.strongRecOn generalizing q with
    | ind n ih =>
      rcases splitAt_cases 38 q with hq | ⟨x, y, rfl, hx⟩
      · by_cases he : q = []
        · subst he; rw [parseParams_nil]; exact .empty
        · rw [parseParams_last q hq he]; exact .last _ _ he hq ((paramOf_means _ _).2 rfl)
      · rw [parseParams_more x y hx]
        exact .more _ _ _ _ hx ((paramOf_means _ _).2 rfl) (ih y.length (by rw [← h]; simp; omega) y rfl)

/-- The state a request is being handled in. -/
def Handling (s : Conf) (r : ReqView) : Prop :=
  s.inEnv = true ∧ s.c.fault = none ∧ (s.c.st = .sendingHeaders ∨ s.c.st = .sendingContent) ∧ (readys s.c.log).getLast? = some r

theorem handling_req {s : Conf} {r : ReqView} (hr : Reach Proper s) (h : Handling s r) : s.c.req = r ∧ s.c.viewsValid = true := by
  obtain ⟨he, hf, hst, hl⟩ := h
  obtain ⟨ph, hruns, hne, hph⟩ := reach_phase hr he hf
  rcases hph with ⟨hset, -⟩ | ⟨-, e | ⟨e, -⟩⟩
  · rcases hst with hst | hst
    · obtain ⟨rfl, -, -, -, -, hv, -⟩ := (settled_sendH hst).1 hset
      have := req_last hruns s.c.req rfl
      rw [hl] at this
      exact ⟨(Option.some.inj this).symm, hv⟩
    · obtain ⟨h, n, rfl, -, -, -, -, -, hv⟩ := (settled_sendC hst).1 hset
      have := req_last hruns s.c.req rfl
      rw [hl] at this
      exact ⟨(Option.some.inj this).symm, hv⟩
  · rcases hst with h | h <;> rw [h] at e <;> cases e
  · rcases hst with h | h <;> rw [h] at e <;> cases e

/-! ### C28 -/

/-- `requestParams()` is called only while a request is being handled, `setRequestParam()` never; `close()` not while
`requestCompleted` is being handled. -/
def ReadsInTime (s : Conf) (l : Label) : Prop :=
  Gentle s l ∧ (l = .readParams → s.c.st = .sendingHeaders ∨ s.c.st = .sendingContent) ∧ ∀ n v, l ≠ .setParam n v

/-- Parameters are there only while a request is being handled or completed, and they are its parameters. -/
def ParamsInv (c : Conn) : Prop :=
  c.params ≠ [] → c.params = parseParams c.req.query ∧ c.st ≠ .uninitialized ∧ c.st ≠ .receivingHeaders ∧ c.st ≠ .receivingContent ∧
    (c.st = .completed → c.viewsValid = true)

theorem paramsInv_foot {c c' : Conn} (hf : Foot c c') (h : ParamsInv c) (hst : c.params ≠ [] → c'.st ≠ .uninitialized ∧ c'.st ≠ .receivingHeaders ∧
    c'.st ≠ .receivingContent ∧ (c'.st = .completed → c.viewsValid = true)) : ParamsInv c' := by
  intro hp
  rw [hf.params] at hp
  rw [hf.params, hf.req, hf.views]
  exact ⟨(h hp).1, (hst hp).1, (hst hp).2.1, (hst hp).2.2.1, (hst hp).2.2.2⟩

theorem paramsInv_same {c c' : Conn} (hf : Foot c c') (hst : c'.st = c.st) (h : ParamsInv c) : ParamsInv c' :=
  paramsInv_foot hf h fun hp => by rw [hst]; exact (h hp).2

/-- The invariant is kept by the object itself. -/
theorem paramsInv_exec {k : Nat} {i : Instr} {c : Conn} {rest : List Instr} (hc : Core false c (i :: rest)) (h : ParamsInv c) :
    ParamsInv (exec k i c).1 := by
  obtain ⟨ph, -, hdata⟩ := hc.data
  rw [List.head?_cons] at hdata
  by_cases h1 : i = .sendHeaders
  · subst h1
    have hst : c.st = .receivingContent := hdata.1
    have hp : c.params = [] := by
      apply Classical.byContradiction
      intro hp; exact (h hp).2.2.2.1 hst
    intro hne
    exfalso; apply hne
    show (c.sendHeaders).1.params = []
    unfold Conn.sendHeaders
    rw [if_neg (by rw [hst]; simp)]
    simp only [Conn.emit, Conn.setup]
    split <;> exact hp
  by_cases h2 : i = .completedRest
  · subst h2
    intro hne
    exfalso; apply hne
    show (c.completedRest).1.params = []
    unfold Conn.completedRest
    dsimp only
    split <;> rfl
  have hf := exec_foot k i c h1 h2
  rcases exec_st k i c with e | ⟨rfl, e⟩ | ⟨rfl, e⟩ | ⟨rfl, e⟩ | ⟨rfl, e⟩ | ⟨rfl, e⟩ | ⟨rfl, e⟩ | ⟨⟨f, rfl⟩, e⟩
  · exact paramsInv_same hf e h
  · have hst : c.st = .receivingHeaders := hdata.1
    exact paramsInv_foot hf h fun hp => absurd hst (h hp).2.2.1
  · exact absurd rfl h1
  · exact paramsInv_foot hf h fun hp => by rw [e]; simp
  · have hv : c.viewsValid = true := hdata.2.2.1
    exact paramsInv_foot hf h fun hp => by rw [e]; simp [hv]
  · have hs := hc.sens
    rw [List.head?_cons, List.filter_cons, if_pos (by rfl)] at hs
    have : c.st = .completed ∧ c.viewsValid = false := by
      unfold sensOk at hs
      rw [if_neg (by simp)] at hs
      cases hst : c.st <;> rw [hst] at hs <;> simp at hs ⊢
      cases hv : c.viewsValid
      · rfl
      · simp [hv] at hs
    exact paramsInv_foot hf h fun hp => by
      have := (h hp).2.2.2.2 this.1
      simp_all
  · exact paramsInv_foot hf h fun hp => by rw [e]; simp
  · exact paramsInv_foot hf h fun hp => by rw [e]; simp

theorem paramsInv_step {s s' : Conf} {l : Label} (hc : Core false s.c s.stack) (h : ParamsInv s.c) (ha : ReadsInTime s l)
    (hs : s.step l = some s') : ParamsInv s'.c := by
  unfold Conf.step at hs
  split at hs
  · cases hs
  · cases l with
    | tau k =>
      dsimp only at hs
      split at hs
      · cases hs
      · cases hs
      · rename_i i rest hne he
        simp only [Option.some.injEq] at hs
        subst hs
        rw [he] at hc
        exact paramsInv_exec hc h
    | call a =>
      dsimp only at hs
      split at hs
      · simp only [Option.some.injEq] at hs; subst hs; exact h
      · cases hs
    | ret =>
      dsimp only at hs
      split at hs
      · simp only [Option.some.injEq] at hs; subst hs; exact h
      · cases hs
    | recv bs =>
      dsimp only at hs
      split at hs
      · split at hs
        · simp only [Option.some.injEq] at hs; subst hs
          exact paramsInv_same (c := s.c) ⟨rfl, rfl, rfl, rfl, rfl, rfl, rfl⟩ rfl h
        · cases hs
      · cases hs
    | bytesWritten k =>
      dsimp only at hs
      split at hs
      · split at hs
        · simp only [Option.some.injEq] at hs; subst hs
          exact paramsInv_same (c := s.c) ⟨rfl, rfl, rfl, rfl, rfl, rfl, rfl⟩ rfl h
        · cases hs
      · cases hs
    | init =>
      dsimp only at hs
      split at hs
      · simp only [Option.some.injEq] at hs
        subst hs
        intro hp
        exfalso; apply hp
        show (Conn.initialize s.c).params = []
        unfold Conn.initialize Conn.toReceivingHeaders Conn.emit
        dsimp only
        split <;> rfl
      · cases hs
    | readParams =>
      dsimp only at hs
      split at hs
      · simp only [Option.some.injEq] at hs
        subst hs
        show ParamsInv s.c.requestParams
        unfold Conn.requestParams
        split
        · intro hp
          rcases ha.2.1 rfl with e | e <;> simp [e]
        · exact h
      · cases hs
    | setParam n v => exact absurd rfl (ha.2.2 n v)
    | readDecoded x =>
      dsimp only at hs
      split at hs
      · simp only [Option.some.injEq] at hs
        subst hs
        show ParamsInv (s.c.readDecoded x)
        unfold Conn.readDecoded
        unfold ParamsInv at *
        cases x <;> dsimp only <;> split <;> exact h
      · cases hs

theorem reach_mono {p q : Conf → Label → Prop} (hpq : ∀ s l, p s l → q s l) {s : Conf} (h : Reach p s) : Reach q s := by
  induction h with
  | start => exact .start
  | step s s' l _ ha hs ih => exact .step s s' l ih (hpq s l ha) hs

theorem paramsInv_reach {s : Conf} (h : Reach ReadsInTime s) : ParamsInv s.c := by
  induction h with
  | start => intro hp; exact absurd rfl hp
  | step s s' l hr ha hs ih =>
    rcases inv_reach (lo := false) (reach_mono (fun s l h => h.1) hr) with hc | ⟨hc, -⟩
    · exact paramsInv_step hc ih ha hs
    · unfold Conf.step at hs
      rw [if_pos (by rw [hc]; rfl)] at hs
      cases hs

/-- C26, C28: `requestParams()` called while a request is being handled shows the parameters of that request, if it has
only been called while requests were being handled and parameters have not been set. -/
theorem C28_params_partial (s : Conf) (hr : Reach ReadsInTime s) (r : ReqView) (hh : Handling s r) :
    ∃ s', s.step .readParams = some s' ∧ ParamsOf r.query s'.c.params ∧ s'.c.log = s.c.log := by
  have hp : Reach Proper s := reach_mono (fun s l h => h.1.1) hr
  obtain ⟨hq, hv⟩ := handling_req hp hh
  refine ⟨⟨s.c.requestParams, s.stack⟩, by simp [Conf.step, hh.1, hh.2.1], ?_, ?_⟩
  · show ParamsOf r.query s.c.requestParams.params
    rw [paramsOf_iff, ← hq]
    unfold Conn.requestParams
    split
    · rfl
    · rename_i hne
      by_cases hpe : s.c.params = []
      · have : s.c.req.query = [] := by
          apply Classical.byContradiction; intro h; exact hne ⟨hpe, h⟩
        rw [hpe, this, parseParams_nil]
      · exact (paramsInv_reach hr hpe).1
  · show s.c.requestParams.log = _
    unfold Conn.requestParams
    split <;> rfl

/-- The raw field behind a decoded accessor. -/
def Decoded.raw (r : ReqView) : Decoded → Bytes
  | .uri => r.uri
  | .fragment => r.fragment
  | .path => r.path
  | .query => r.query

/-- The caches are empty or right. -/
def CacheInv (c : Conn) : Prop := ∀ d, c.decoded d = [] ∨ c.decoded d = percentDecode (Decoded.raw c.req d)

theorem decoded_eq {c c' : Conn} (h1 : c'.uriDec = c.uriDec) (h2 : c'.fragDec = c.fragDec) (h3 : c'.pathDec = c.pathDec)
    (h4 : c'.queryDec = c.queryDec) (d : Decoded) : c'.decoded d = c.decoded d := by
  cases d <;> simp only [Conn.decoded, h1, h2, h3, h4]

theorem cacheInv_foot {c c' : Conn} (hf : Foot c c') (h : CacheInv c) : CacheInv c' := by
  intro d
  rw [decoded_eq hf.uriDec hf.fragDec hf.pathDec hf.queryDec, hf.req]
  exact h d

theorem cacheInv_exec (k : Nat) (i : Instr) (c : Conn) (h : CacheInv c) : CacheInv (exec k i c).1 := by
  by_cases h1 : i = .sendHeaders
  · subst h1
    show CacheInv (c.sendHeaders).1
    unfold Conn.sendHeaders
    split
    · exact h
    · intro d; left; cases d <;> rfl
  by_cases h2 : i = .completedRest
  · subst h2
    show CacheInv (c.completedRest).1
    unfold Conn.completedRest
    dsimp only
    split <;> (intro d; have := h d; cases d <;> exact this)
  exact cacheInv_foot (exec_foot k i c h1 h2) h

theorem readDecoded_spec {c : Conn} (h : CacheInv c) (d : Decoded) : (c.readDecoded d).decoded d = percentDecode (Decoded.raw c.req d) ∧
    CacheInv (c.readDecoded d) ∧ (c.readDecoded d).req = c.req := by
  have hnil : percentDecode [] = [] := C04_no_percent [] (by simp)
  have key : ∀ d', c.decoded d' = [] → Decoded.raw c.req d' = [] → c.decoded d' = percentDecode (Decoded.raw c.req d') := by
    intro d' e1 e2; rw [e1, e2, hnil]
  have hd := h d
  unfold Conn.readDecoded
  cases d <;> dsimp only <;> split
  all_goals first
    | (refine ⟨rfl, ?_, rfl⟩
       intro d'; have := h d'
       cases d' <;> first | exact .inr rfl | exact this)
    | (rename_i hn
       refine ⟨?_, h, rfl⟩
       rcases hd with hd | hd
       · refine key _ hd ?_
         apply Classical.byContradiction; intro hr; exact hn ⟨hd, hr⟩
       · exact hd)

theorem cacheInv_step {s s' : Conf} {l : Label} (h : CacheInv s.c) (hs : s.step l = some s') : CacheInv s'.c := by
  unfold Conf.step at hs
  split at hs
  · cases hs
  · cases l with
    | tau k =>
      dsimp only at hs
      split at hs
      · cases hs
      · cases hs
      · simp only [Option.some.injEq] at hs; subst hs; exact cacheInv_exec _ _ _ h
    | call a =>
      dsimp only at hs
      split at hs
      · simp only [Option.some.injEq] at hs; subst hs; exact h
      · cases hs
    | ret =>
      dsimp only at hs
      split at hs
      · simp only [Option.some.injEq] at hs; subst hs; exact h
      · cases hs
    | recv bs =>
      dsimp only at hs
      split at hs
      · split at hs
        · simp only [Option.some.injEq] at hs; subst hs; exact cacheInv_foot (c := s.c) ⟨rfl, rfl, rfl, rfl, rfl, rfl, rfl⟩ h
        · cases hs
      · cases hs
    | bytesWritten k =>
      dsimp only at hs
      split at hs
      · split at hs
        · simp only [Option.some.injEq] at hs; subst hs; exact cacheInv_foot (c := s.c) ⟨rfl, rfl, rfl, rfl, rfl, rfl, rfl⟩ h
        · cases hs
      · cases hs
    | init =>
      dsimp only at hs
      split at hs
      · simp only [Option.some.injEq] at hs
        subst hs
        show CacheInv (Conn.initialize s.c)
        unfold Conn.initialize Conn.toReceivingHeaders Conn.emit
        dsimp only
        split <;> (intro d; have := h d; cases d <;> exact this)
      · cases hs
    | readParams =>
      dsimp only at hs
      split at hs
      · simp only [Option.some.injEq] at hs; subst hs
        show CacheInv s.c.requestParams
        unfold Conn.requestParams
        split <;> (intro d; have := h d; cases d <;> exact this)
      · cases hs
    | setParam n v =>
      dsimp only at hs
      split at hs
      · simp only [Option.some.injEq] at hs; subst hs
        show CacheInv (s.c.setRequestParam n v)
        unfold Conn.setRequestParam Conn.requestParams
        dsimp only
        split <;> (intro d; have := h d; cases d <;> exact this)
      · cases hs
    | readDecoded x =>
      dsimp only at hs
      split at hs
      · simp only [Option.some.injEq] at hs; subst hs; exact (readDecoded_spec h x).2.1
      · cases hs

/-- C28: the decoded accessors, called while a request is being handled, show the decoding of the fields of that request,
whatever was read before. -/
theorem C28_decoded (s : Conf) (hr : Reach Proper s) (r : ReqView) (hh : Handling s r) (d : Decoded) :
    ∃ s', s.step (.readDecoded d) = some s' ∧ s'.c.decoded d = percentDecode (Decoded.raw r d) := by
  have hc : CacheInv s.c := by
    clear hh
    induction hr with
    | start => intro d; left; cases d <;> rfl
    | step s s' l _ _ hs ih => exact cacheInv_step ih hs
  refine ⟨⟨s.c.readDecoded d, s.stack⟩, by simp [Conf.step, hh.1, hh.2.1], ?_⟩
  rw [← (handling_req hr hh).1]
  exact (readDecoded_spec hc d).1

/-- A request is answered and control returns to the event loop. -/
def staleBefore : List Label :=
  [.init, .recv b!"GET /a?x=1 HTTP/1.1\r\n\r\n", .call .processInput] ++ taus 3 ++ [.call (.writeResponse 200 [] [])] ++ taus 4 ++
  [.ret] ++ taus 1 ++ [.tau 1000, .ret] ++ taus 4 ++ [.ret] ++ taus 0

/-- Another request arrives. -/
def staleAfter : List Label := [.recv b!"GET /b?y=2 HTTP/1.1\r\n\r\n", .call .processInput] ++ taus 3

/-- What reading the parameters between the two does. -/
def withStale (q : Conf) : Conf := ⟨{ q.c with params := [(b!"x", b!"1")], staleRead := true }, q.stack⟩

/-- C28 is false of the code otherwise: if the parameters are read after a request has been completed, the next request shows the
parameters of the previous one. -/
theorem C28_violation : ∃ s r, Reach Gentle s ∧ Handling s r ∧ r.query = b!"y=2" ∧
    ∃ s', s.step .readParams = some s' ∧ s'.c.params = [(b!"x", b!"1")] := by
  have hx : parseParams b!"x=1" = [(b!"x", b!"1")] := by
    rw [eq_comm, ← paramsOf_iff]
    refine .last _ _ (by decide) (by decide) ?_
    have := ItemMeans.pair b!"x" b!"1" (by decide)
    rwa [C04_no_percent b!"x" (by decide), C04_no_percent b!"1" (by decide)] at this
  obtain ⟨q, h1, h2⟩ := exists_of_endsIn (allowed := Gentle) (ls := staleBefore)
    (p := fun q => q.c.params == [] && q.c.req.query == b!"x=1" && q.inEnv && q.c.fault == none && !q.c.viewsValid &&
      match (withStale q).runIf Gentle staleAfter with
      | some s => s.inEnv && s.c.fault == none && s.c.st == .sendingHeaders && s.c.params == [(b!"x", b!"1")] &&
          ((readys s.c.log).getLast?.any fun r => r.query == b!"y=2")
      | none => false) (by decide +kernel)
  simp only [Bool.and_eq_true, beq_iff_eq, Bool.not_eq_true'] at h2
  obtain ⟨⟨⟨⟨⟨a1, a2⟩, a3⟩, a4⟩, a5⟩, a6⟩ := h2
  have hstep : q.step .readParams = some (withStale q) := by
    have : q.c.requestParams = (withStale q).c := by
      unfold Conn.requestParams withStale
      rw [if_pos ⟨a1, by rw [a2]; simp⟩, a2, hx]
      simp [a5]
    simp only [Conf.step, a4, a3, this]
    rfl
  have hreach : Reach Gentle (withStale q) := .step q _ .readParams h1 ⟨fun h => (by cases h), fun h => (by cases h)⟩ hstep
  split at a6
  · rename_i s hs
    simp only [Bool.and_eq_true, beq_iff_eq] at a6
    obtain ⟨⟨⟨⟨b1, b2⟩, b3⟩, b4⟩, b5⟩ := a6
    obtain ⟨r, hr, b5⟩ := (Option.any_eq_true _ _).1 b5
    refine ⟨s, r, reach_runIf Gentle staleAfter _ s hreach hs, ⟨b1, b2, .inl b3, hr⟩, by simpa using b5,
      ⟨s.c.requestParams, s.stack⟩, by simp [Conf.step, b1, b2], ?_⟩
    show s.c.requestParams.params = _
    unfold Conn.requestParams
    rw [if_neg (by rw [b4]; simp)]
    exact b4
  · cases a6

instance (s : Conf) (l : Label) : Decidable (ReadsInTime s l) :=
  match l with
  | .setParam n v => isFalse fun h => h.2.2 n v rfl
  | .readParams => decidable_of_iff (Gentle s .readParams ∧ (s.c.st = .sendingHeaders ∨ s.c.st = .sendingContent))
      ⟨fun h => ⟨h.1, fun _ => h.2, fun _ _ e => by cases e⟩, fun h => ⟨h.1, h.2.1 rfl⟩⟩
  | .tau k => decidable_of_iff (Gentle s (.tau k)) ⟨fun h => ⟨h, (by simp), (by simp)⟩, fun h => h.1⟩
  | .call a => decidable_of_iff (Gentle s (.call a)) ⟨fun h => ⟨h, (by simp), (by simp)⟩, fun h => h.1⟩
  | .ret => decidable_of_iff (Gentle s .ret) ⟨fun h => ⟨h, (by simp), (by simp)⟩, fun h => h.1⟩
  | .recv bs => decidable_of_iff (Gentle s (.recv bs)) ⟨fun h => ⟨h, (by simp), (by simp)⟩, fun h => h.1⟩
  | .bytesWritten k => decidable_of_iff (Gentle s (.bytesWritten k)) ⟨fun h => ⟨h, (by simp), (by simp)⟩, fun h => h.1⟩
  | .init => decidable_of_iff (Gentle s .init) ⟨fun h => ⟨h, (by simp), (by simp)⟩, fun h => h.1⟩
  | .readDecoded d => decidable_of_iff (Gentle s (.readDecoded d)) ⟨fun h => ⟨h, (by simp), (by simp)⟩, fun h => h.1⟩

/-- The hypotheses of C28 are met. -/
example : ∃ s r, Reach ReadsInTime s ∧ Handling s r ∧ r.query = b!"x=%31&y" := by
  obtain ⟨t, h1, h2⟩ := exists_of_endsIn (allowed := ReadsInTime)
    (ls := [.init, .recv b!"GET /a?x=%31&y HTTP/1.1\r\n\r\n", .call .processInput] ++ taus 3)
    (p := fun s => s.inEnv && s.c.fault == none && s.c.st == .sendingHeaders &&
      ((readys s.c.log).getLast?.any fun r => r.query == b!"x=%31&y")) (by decide +kernel)
  simp only [Bool.and_eq_true, beq_iff_eq] at h2
  obtain ⟨⟨⟨b1, b2⟩, b3⟩, b5⟩ := h2
  obtain ⟨r, hr, b5⟩ := (Option.any_eq_true _ _).1 b5
  exact ⟨t, r, h1, ⟨b1, b2, .inl b3, hr⟩, by simpa using b5⟩

/-! ### C26, C27: looking up and setting -/

/-- C26: `requestParamValue(name)` is the value of the first parameter with that name, up to letter case; empty if there is
none. -/
theorem C26_lookup (ps : List (Bytes × Bytes)) (name : Bytes) :
    (∀ p n v q, ps = p ++ (n, v) :: q → SameCI n name → (∀ x ∈ p, ¬ SameCI x.1 name) → paramLookup ps name = v) ∧
    ((∀ x ∈ ps, ¬ SameCI x.1 name) → paramLookup ps name = []) := by
  have hcmp : ∀ a b : Bytes, paramNameEq a b = true ↔ SameCI a b := fun a b => C03_equals_iff a b
  constructor
  · rintro p n v q rfl hn hp
    induction p with
    | nil => simp [paramLookup, (hcmp _ _).2 hn]
    | cons x p ih =>
      have : ¬ paramNameEq x.1 name = true := fun e => hp x (by simp) ((hcmp _ _).1 e)
      simp only [List.cons_append, paramLookup]
      rw [if_neg this]
      exact ih fun y hy => hp y (by simp [hy])
  · intro hp
    induction ps with
    | nil => rfl
    | cons x ps ih =>
      have : ¬ paramNameEq x.1 name = true := fun e => hp x (by simp) ((hcmp _ _).1 e)
      simp only [paramLookup]
      rw [if_neg this]
      exact ih fun y hy => hp y (by simp [hy])

/-- C27: setting replaces the first parameter with that name in place, or appends one. -/
theorem C27_shape (ps : List (Bytes × Bytes)) (n v : Bytes) :
    (∃ p m w q, ps = p ++ (m, w) :: q ∧ SameCI m n ∧ (∀ x ∈ p, ¬ SameCI x.1 n) ∧ paramSet ps n v = p ++ (n, v) :: q) ∨
    ((∀ x ∈ ps, ¬ SameCI x.1 n) ∧ paramSet ps n v = ps ++ [(n, v)]) := by
  have hcmp : ∀ a b : Bytes, paramNameEq a b = true ↔ SameCI a b := fun a b => C03_equals_iff a b
  induction ps with
  | nil => exact .inr ⟨by simp, rfl⟩
  | cons x ps ih =>
    by_cases hx : SameCI x.1 n
    · exact .inl ⟨[], x.1, x.2, ps, rfl, hx, by simp, by simp [paramSet, (hcmp _ _).2 hx]⟩
    · have hx' : ¬ paramNameEq x.1 n = true := fun e => hx ((hcmp _ _).1 e)
      rcases ih with ⟨p, m, w, q, e1, e2, e3, e4⟩ | ⟨e1, e2⟩
      · refine .inl ⟨x :: p, m, w, q, by rw [e1]; rfl, e2, ?_, ?_⟩
        · intro y hy
          rcases List.mem_cons.1 hy with rfl | hy
          · exact hx
          · exact e3 y hy
        · simp only [paramSet]; rw [if_neg hx', e4]; rfl
      · refine .inr ⟨?_, ?_⟩
        · intro y hy
          rcases List.mem_cons.1 hy with rfl | hy
          · exact hx
          · exact e1 y hy
        · simp only [paramSet]; rw [if_neg hx', e2]; rfl

/-- C27: afterwards the parameter has the value, and every other one the value it had. -/
theorem C27_lookup (ps : List (Bytes × Bytes)) (n v : Bytes) :
    paramLookup (paramSet ps n v) n = v ∧ ∀ m, ¬ SameCI m n → paramLookup (paramSet ps n v) m = paramLookup ps m := by
  have hcmp : ∀ a b : Bytes, paramNameEq a b = true ↔ SameCI a b := fun a b => C03_equals_iff a b
  have hrefl : SameCI n n := rfl
  induction ps with
  | nil =>
    refine ⟨by simp [paramSet, paramLookup, (hcmp _ _).2 hrefl], fun m hm => ?_⟩
    have : ¬ paramNameEq n m = true := fun e => hm ((hcmp _ _).1 e).symm
    simp only [paramSet, paramLookup]; rw [if_neg this]
  | cons x ps ih =>
    by_cases hx : SameCI x.1 n
    · have hx' := (hcmp _ _).2 hx
      refine ⟨by simp [paramSet, hx', paramLookup, (hcmp _ _).2 hrefl], fun m hm => ?_⟩
      have h1 : ¬ paramNameEq n m = true := fun e => hm ((hcmp _ _).1 e).symm
      have h2 : ¬ paramNameEq x.1 m = true := fun e => hm (((hcmp _ _).1 e).symm.trans hx)
      simp only [paramSet]; rw [if_pos hx']
      simp only [paramLookup]; rw [if_neg h1, if_neg h2]
    · have hx' : ¬ paramNameEq x.1 n = true := fun e => hx ((hcmp _ _).1 e)
      refine ⟨?_, fun m hm => ?_⟩
      · simp only [paramSet]; rw [if_neg hx']; simp only [paramLookup]; rw [if_neg hx']; exact ih.1
      · simp only [paramSet]; rw [if_neg hx']; simp only [paramLookup]
        split
        · rfl
        · exact ih.2 m hm

/-- C26, C27 on the connection: setting a parameter while a request is being handled, after at least one was read or there are
none, works on the parameters of the request. -/
theorem C27_connection (s : Conf) (hr : Reach ReadsInTime s) (r : ReqView) (hh : Handling s r) (n v : Bytes) :
    ∃ ps s', ParamsOf r.query ps ∧ s.step (.setParam n v) = some s' ∧ s'.c.params = paramSet ps n v ∧
      (∀ name, (s.c.requestParamValue name).1 = paramLookup ps name) ∧ ∀ name, (s'.c.requestParamValue name).1 = paramLookup (paramSet ps n v) name := by
  obtain ⟨s1, h1, h2, -⟩ := C28_params_partial s hr r hh
  have he : s1.c.params = s.c.requestParams.params := by
    simp [Conf.step, hh.1, hh.2.1] at h1
    rw [← h1]
  rw [he] at h2
  refine ⟨s.c.requestParams.params, ⟨s.c.setRequestParam n v, s.stack⟩, h2, by simp [Conf.step, hh.1, hh.2.1], rfl, fun name => rfl, fun name => ?_⟩
  have hne : (s.c.setRequestParam n v).params ≠ [] := by
    show paramSet s.c.requestParams.params n v ≠ []
    cases s.c.requestParams.params with
    | nil => simp [paramSet]
    | cons x xs => simp only [paramSet]; split <;> simp
  show paramLookup ((s.c.setRequestParam n v).requestParams).params name = _
  unfold Conn.requestParams
  rw [if_neg (fun h => hne h.1)]
  rfl

end Pillow.Props
