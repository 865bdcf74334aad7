import Verif.Props.HandlerTree
/-!
# C79: what a route is given
-/
namespace Pillow.Props
open Pillow Pillow.Spec

theorem history_read {s : Conf} {sets : List (Bytes × Bytes)} {r : ReqView} (h : History s sets) (hh : Handling s r) :
    History ⟨s.c.requestParams, s.stack⟩ sets ∧ Handling ⟨s.c.requestParams, s.stack⟩ r := by
  have hs : s.step .readParams = some ⟨s.c.requestParams, s.stack⟩ := by simp [Conf.step, hh.1, hh.2.1]
  have k := History.step s _ .readParams sets h ⟨⟨fun e => (by cases e), fun e => (by cases e)⟩, fun _ => hh.2.2.1⟩ hs
  rw [nowSet_same (step_readys (by simp) hs) (by simp)] at k
  have e := same_read s.c
  exact ⟨k, hh.1, e.fault.trans hh.2.1, by show s.c.requestParams.st = _ ∨ s.c.requestParams.st = _; rw [e.st]; exact hh.2.2.1,
    by show (readys s.c.requestParams.log).getLast? = _; rw [e.log]; exact hh.2.2.2⟩

theorem history_set {s : Conf} {sets : List (Bytes × Bytes)} {r : ReqView} (h : History s sets) (hh : Handling s r) (n v : Bytes) :
    History ⟨s.c.setRequestParam n v, s.stack⟩ (sets ++ [(n, v)]) ∧ Handling ⟨s.c.setRequestParam n v, s.stack⟩ r := by
  have hs : s.step (.setParam n v) = some ⟨s.c.setRequestParam n v, s.stack⟩ := by simp [Conf.step, hh.1, hh.2.1]
  have k := History.step s _ (.setParam n v) sets h ⟨⟨fun e => (by cases e), fun e => (by cases e)⟩, fun _ => hh.2.2.1⟩ hs
  have hn : nowSet s ⟨s.c.setRequestParam n v, s.stack⟩ (.setParam n v) sets = sets ++ [(n, v)] := by
    unfold nowSet; rw [if_neg (by rw [step_readys (by simp) hs]; simp)]
  rw [hn] at k
  have e := same_set s.c n v
  exact ⟨k, hh.1, e.fault.trans hh.2.1, by show (s.c.setRequestParam n v).st = _ ∨ (s.c.setRequestParam n v).st = _; rw [e.st]; exact hh.2.2.1,
    by show (readys (s.c.setRequestParam n v).log).getLast? = _; rw [e.log]; exact hh.2.2.2⟩

theorem history_sets {r : ReqView} (ps : List (Bytes × Bytes)) : ∀ {s : Conf} {sets : List (Bytes × Bytes)}, History s sets → Handling s r →
    History ⟨s.c.setParams ps, s.stack⟩ (sets ++ ps) ∧ Handling ⟨s.c.setParams ps, s.stack⟩ r := by
  induction ps with
  | nil => intro s sets h hh; rw [List.append_nil]; exact ⟨h, hh⟩
  | cons p ps ih =>
    intro s sets h hh
    obtain ⟨k1, k2⟩ := history_set h hh p.1 p.2
    have := ih k1 k2
    rw [List.append_assoc] at this
    exact this

theorem reads_router {s : Conf} {sets : List (Bytes × Bytes)} {r : ReqView} (rt : Router) (h : History s sets) (hh : Handling s r) :
    History ⟨(rt.reads s.c).conn, s.stack⟩ sets ∧ Handling ⟨(rt.reads s.c).conn, s.stack⟩ r := by
  unfold Router.reads
  split
  · exact history_read h hh
  · exact ⟨h, hh⟩

/-- What the router goes by. -/
theorem finds_eq {e : TreeEnv} {rt : Router} {table : List (Bytes × Bytes)} {s : Conf} {sets : List (Bytes × Bytes)} (hr : History s sets) {r : ReqView} (hh : Handling s r)
    {query : List (Bytes × Bytes)} (hq : ParamsOf r.query query) : ∃ mp, (rt.acceptMethodParam = true → mp = valueOf query sets b!"_method") ∧
      finds e rt table s.c = ({ rt with routes := routesOf e.words table } : Router).handle e.engine e.dec r.method mp r.path := by
  refine ⟨paramLookup (rt.reads s.c).conn.params b!"_method", fun ha => ?_, ?_⟩
  · obtain ⟨q', hq', hv⟩ := C79_values s sets hr r hh
    have : q' = query := by rw [paramsOf_iff] at hq hq'; rw [hq, hq']
    subst this
    rw [← hv b!"_method"]
    simp [Router.reads, ha, Conn.requestParamValue]
  · unfold finds
    rw [(handling_req (history_reach hr) hh).1]

/-- **C79**: a router is given a request, whatever has happened on the connection before, and whatever parameters handlers before it have set for this request; `meth` is the method it is to go
by. If some route fits, the first one that does is invoked, with the same request, and its handler finds, on top of the parameters there were, one for each name of the route path: the piece
of the (decoded) path that stands for it. -/
theorem C79_route (w : Words) (e : TreeEnv) (hw : e.words = w.word) (hm : GoodEngine w.word e.engine) (rt : Router) (table : List (Bytes × Bytes)) (targets : List Tree)
    (ht : GoodTable w table) (s : Conf) (sets : List (Bytes × Bytes)) (hr : History s sets) (r : ReqView) (hh : Handling s r) (query : List (Bytes × Bytes)) (hq : ParamsOf r.query query)
    (meth : Bytes) (hmeth : meth = if rt.acceptMethodParam = true ∧ valueOf query sets b!"_method" ≠ [] then valueOf query sets b!"_method" else r.method)
    (hfit : ∃ rte ∈ table, PathOk w.word rte (e.dec r.path) ∧ MethodOk rte.1 meth) :
    ∃ i rte bind s' ms, table[i]? = some rte ∧ PathMatches w.word rte.2 (e.dec r.path) bind ∧ MethodOk rte.1 meth ∧
      (∀ j r', j < i → table[j]? = some r' → ¬ (PathOk w.word r' (e.dec r.path) ∧ MethodOk r'.1 meth)) ∧
      NoDeed ms ∧ s.run (ms.flatMap Doing.labels) = some s' ∧ Handling s' r ∧ History s' (sets ++ bind) ∧
      (∀ name, (s'.c.requestParamValue name).1 = valueOf query (sets ++ bind) name) ∧
      ((Tree.router rt table targets).handle e s.c).moves = ms ++ (Tree.invoke e targets i s'.c).moves ∧ ((Tree.router rt table targets).handle e s.c).taken = true := by
  obtain ⟨mp, hmp, hfe⟩ := finds_eq (e := e) (rt := rt) (table := table) hr hh hq
  have hd := C30_plain_paths w e.engine hm table ht.plain ht.ascii { rt with routes := routesOf e.words table } (by rw [hw]) e.dec r.method mp r.path meth (by
    rw [hmeth]
    by_cases ha : rt.acceptMethodParam = true
    · simp only [ha, true_and, hmp ha]
    · simp [ha])
  rw [← hfe] at hd
  rcases hd with ⟨i, rte, params, h1, h2, h3, h4, h5⟩ | ⟨hno, -⟩
  · obtain ⟨ts, hts⟩ : ∃ ts, Reads w.word rte.2 ts := by obtain ⟨bind, ts, k, -⟩ := h2; exact ⟨ts, k⟩
    have hmem : rte ∈ table := List.mem_of_getElem? h1
    obtain ⟨bind, k1, -, k3, -⟩ := C31_exactly w e.engine hm table { rt with routes := routesOf e.words table } (by rw [hw]) e.dec r.method mp r.path i params (by rw [← hfe, h5]) rte h1 ts hts (ht.plain _ hmem ts hts)
    have hpb : params = bind := by
      refine (k3 ?_).2 (ht.first _ hmem ts hts)
      obtain ⟨caps, -, hl, hb⟩ := fits_iff.1 k1
      rw [hb, List.map_fst_zip (by omega)]
      exact ht.names _ hmem ts hts
    subst hpb
    obtain ⟨a1, a2⟩ := reads_router rt hr hh
    obtain ⟨b1, b2⟩ := history_sets params a1 a2
    have hl := (leads_reads rt s.c).append (leads_sets params (rt.reads s.c).conn)
    refine ⟨i, rte, params, ⟨(rt.reads s.c).conn.setParams params, s.stack⟩, (rt.reads s.c).moves ++ params.map (fun p => .set p.1 p.2), h1, ⟨ts, hts, k1⟩, h3, h4,
      noDeed_append (noDeed_reads rt s.c) (noDeed_sets params), ?_, b2, b1, ?_, ?_, ?_⟩
    · rw [← prep_quiet (noDeed_append (noDeed_reads rt s.c) (noDeed_sets params))]
      exact hl.2 s rfl hh.1 hh.2.1
    · obtain ⟨q', hq', hv⟩ := C79_values _ _ b1 r b2
      have : q' = query := by rw [paramsOf_iff] at hq hq'; rw [hq, hq']
      subst this
      exact hv
    · rw [router_handle, h5]
    · rw [router_handle, h5]
  · obtain ⟨rte, k1, k2⟩ := hfit
    exact absurd k2 (hno rte k1)

/-- **C79**: if no route fits, the request is answered or refused, as the router is configured: 404 if no path fits, 405 with the methods of the routes whose path does otherwise. -/
theorem C79_no_route (w : Words) (e : TreeEnv) (hw : e.words = w.word) (hm : GoodEngine w.word e.engine) (rt : Router) (table : List (Bytes × Bytes)) (targets : List Tree)
    (ht : GoodTable w table) (s : Conf) (sets : List (Bytes × Bytes)) (hr : History s sets) (r : ReqView) (hh : Handling s r) (query : List (Bytes × Bytes)) (hq : ParamsOf r.query query)
    (meth : Bytes) (hmeth : meth = if rt.acceptMethodParam = true ∧ valueOf query sets b!"_method" ≠ [] then valueOf query sets b!"_method" else r.method)
    (hno : ∀ rte ∈ table, ¬ (PathOk w.word rte (e.dec r.path) ∧ MethodOk rte.1 meth)) (h : Handled) (hdef : h = (Tree.router rt table targets).handle e s.c) :
    ((∀ rte ∈ table, ¬ PathOk w.word rte (e.dec r.path)) → h.taken = decide (rt.unmatched = .return4xx) ∧
      deeds h.moves = if rt.unmatched = .return4xx then [.call (.writeResponse 404 [] [])] else []) ∧
    ((∃ rte ∈ table, PathOk w.word rte (e.dec r.path)) → h.taken = decide (rt.methodMismatch = .return4xx) ∧
      deeds h.moves = if rt.methodMismatch = .return4xx then
        [.call (.writeResponse 405 [⟨b!"Allow", List.intercalate b!", " (allowed (fun r' => PathOk w.word r' (e.dec r.path)) table)⟩] [])] else []) := by
  obtain ⟨mp, hmp, hfe⟩ := finds_eq (e := e) (rt := rt) (table := table) hr hh hq
  have hd := C30_plain_paths w e.engine hm table ht.plain ht.ascii { rt with routes := routesOf e.words table } (by rw [hw]) e.dec r.method mp r.path meth (by
    rw [hmeth]
    by_cases ha : rt.acceptMethodParam = true
    · simp only [ha, true_and, hmp ha]
    · simp [ha])
  rw [← hfe] at hd
  rw [router_handle] at hdef
  have hans : ∀ a, deeds ((rt.reads s.c).moves ++ [.act (.call a)]) = [.call a] := fun a => by rw [deeds_append, deeds_quiet (noDeed_reads rt s.c)]; rfl
  rcases hd with ⟨i, rte, params, h1, h2, h3, -, -⟩ | ⟨-, ⟨h1, h2⟩ | ⟨⟨rte, h1, h1'⟩, h2⟩⟩
  · exact absurd ⟨h2, h3⟩ (hno rte (List.mem_of_getElem? h1))
  · refine ⟨fun _ => ?_, fun ⟨rte, k1, k2⟩ => absurd k2 (h1 rte k1)⟩
    rw [h2] at hdef
    dsimp only at hdef
    by_cases hu : rt.unmatched = .return4xx
    · rw [if_pos hu] at hdef ⊢
      subst hdef
      exact ⟨by simp [hu], hans _⟩
    · rw [if_neg hu] at hdef ⊢
      subst hdef
      exact ⟨by simp [hu], deeds_quiet (noDeed_reads rt s.c)⟩
  · refine ⟨fun k => absurd h1' (k rte h1), fun _ => ?_⟩
    rw [h2] at hdef
    dsimp only at hdef
    by_cases hu : rt.methodMismatch = .return4xx
    · rw [if_pos hu] at hdef ⊢
      subst hdef
      exact ⟨by simp [hu], hans _⟩
    · rw [if_neg hu] at hdef ⊢
      subst hdef
      exact ⟨by simp [hu], deeds_quiet (noDeed_reads rt s.c)⟩

theorem split_question' {a b x y : Bytes} (ha : 63 ∉ a) (hb : 63 ∉ b) (h : a ++ 63 :: x = b ++ 63 :: y) : x = y := by
  have := split_question ha hb h
  subst this
  simpa using h

/-- **C79**: a request of a client of the library (whose path has no question mark) is handled with the method, the path and the query of the url the client was given, so that these are what the
theorems above speak about. -/
theorem C79_asked (env : ClientEnv) (fuel : Nat) (c : Client) (s : Conf) (h : AskedServer env fuel c s) (hp : 63 ∉ c.request.url.path) :
    ∃ r, Handling s r ∧ r.method = c.request.method.getD [] ∧ r.path = c.request.url.path ∧ r.query = c.request.url.query ∧ r.content = c.request.data := by
  have hd := C78_shown env fuel c s h
  have hpath := delivered_path hd hp
  refine ⟨s.c.req, ⟨h.control, h.fault, .inl h.handing, asked_last h⟩, ?_, hpath, ?_, ?_⟩
  · obtain ⟨host, -, e, -⟩ := hd; exact e
  · obtain ⟨host, -, -, -, -, -, -, ⟨-, ho⟩, -⟩ := hd
    simp only [outgoing] at ho
    by_cases hq : c.request.url.query = []
    · rw [if_pos hq, List.append_nil] at ho
      rcases ho with ⟨e, -⟩ | ⟨-, -, e⟩
      · rw [e, hq]
      · exact absurd (by rw [e]; simp) hp
    · rw [if_neg hq] at ho
      rcases ho with ⟨-, e⟩ | ⟨-, -, e⟩
      · exact absurd (by rw [← hpath, ← e]; simp) hp
      · exact (split_question' (b := s.c.req.path) hp (by rw [hpath]; exact hp) (by simpa using e)).symm
  · obtain ⟨host, -, -, -, -, -, e, -⟩ := hd; exact e

/-! ## Examples -/

/-- The parameters are used. -/
def uses : Label → Bool
  | .readParams | .setParam _ _ => true
  | _ => false

/-- The history made by these labels, if they are possible and in time. -/
def historyOf (s : Conf) (sets : List (Bytes × Bytes)) : List Label → Option (Conf × List (Bytes × Bytes))
  | [] => some (s, sets)
  | l :: ls => if Spec.Gentle s l ∧ (s.c.st = .sendingHeaders ∨ s.c.st = .sendingContent ∨ uses l = false) then
      match s.step l with
      | some s' => historyOf s' (nowSet s s' l sets) ls
      | none => none
    else none

theorem historyOf_ok : ∀ (ls : List Label) (s t : Conf) (sets sets' : List (Bytes × Bytes)), History s sets → historyOf s sets ls = some (t, sets') → History t sets'
  | [], s, t, sets, sets', h, e => by simp [historyOf] at e; obtain ⟨rfl, rfl⟩ := e; exact h
  | l :: ls, s, t, sets, sets', h, e => by
    simp only [historyOf] at e
    split at e
    · rename_i ha
      split at e
      · rename_i s' hs
        refine historyOf_ok ls _ _ _ _ (.step s s' l sets h ⟨ha.1, ?_⟩ hs) e
        rintro (rfl | ⟨n, v, rfl⟩)
        · rcases ha.2 with k | k | k
          · exact .inl k
          · exact .inr k
          · cases k
        · rcases ha.2 with k | k | k
          · exact .inl k
          · exact .inr k
          · cases k
      · cases e
    · cases e

/-- Two requests on one connection: parameters were set for the first, one for the second. -/
def demoHistory : List Label :=
  [.init, .recv b!"GET /a?x=1&y=2 HTTP/1.1\r\n\r\nGET /hello/you?x=5&_method=PUT HTTP/1.1\r\n\r\n", .call .processInput] ++ taus 3 ++
    [.setParam b!"y" b!"7", .setParam b!"z" b!"8", .call (.writeResponse 200 [] b!"ok")] ++ taus 7 ++ [.ret] ++ taus 2 ++ [.ret] ++ taus 4 ++ [.setParam b!"X" b!"6"]

def demoTable : List (Bytes × Bytes) := [(b!"GET", b!"/files/*name"), (b!"put", b!"/hello/:who")]

theorem demo_reads₁ : Reads plainWords.word b!"/files/*name" [.lit 47, .lit 102, .lit 105, .lit 108, .lit 101, .lit 115, .lit 47, .splat b!"name"] := by
  repeat refine .lit _ _ _ (by rintro (h | h) <;> cases h) ?_
  exact .splat b!"name" [] _ (by decide) (by decide) (by intro c h; cases h) .nil

theorem demo_reads₂ : Reads plainWords.word b!"/hello/:who" [.lit 47, .lit 104, .lit 101, .lit 108, .lit 108, .lit 111, .lit 47, .param b!"who"] := by
  repeat refine .lit _ _ _ (by rintro (h | h) <;> cases h) ?_
  exact .param b!"who" [] _ (by decide) (by decide) (by intro c h; cases h) .nil

theorem demo_table : GoodTable plainWords demoTable := by
  have key : ∀ (P : List Tok → Prop), P [.lit 47, .lit 102, .lit 105, .lit 108, .lit 101, .lit 115, .lit 47, .splat b!"name"] →
      P [.lit 47, .lit 104, .lit 101, .lit 108, .lit 108, .lit 111, .lit 47, .param b!"who"] → ∀ r ∈ demoTable, ∀ ts, Reads plainWords.word r.2 ts → P ts := by
    intro P h1 h2 r hr ts hts
    simp only [demoTable, List.mem_cons, List.not_mem_nil, or_false] at hr
    rcases hr with rfl | rfl
    · rw [reads_unique hts demo_reads₁]; exact h1
    · rw [reads_unique hts demo_reads₂]; exact h2
  refine ⟨key Plain ?_ ?_, key ParamsFirst ?_ ?_, key (fun ts => (ts.filterMap fun | .param n | .splat n => some n | _ => none).Pairwise (· ≠ ·)) ?_ ?_, ?_⟩
  · intro b hb; simp at hb; rcases hb with rfl | rfl | rfl | rfl | rfl | rfl | rfl <;> decide
  · intro b hb; simp at hb; rcases hb with rfl | rfl | rfl | rfl | rfl | rfl <;> decide
  · simp [ParamsFirst]
  · simp [ParamsFirst]
  · simp
  · simp
  · intro r hr
    simp only [demoTable, List.mem_cons, List.not_mem_nil, or_false] at hr
    rcases hr with rfl | rfl <;> decide

/-- All that `C79_values`, `C79_route` and `C79_asked` suppose can be met: the second request on a connection, `GET /hello/you?x=5&_method=PUT`, for which `X` has been set to 6 (and what was set for
the first request does not count), finds the second route, and `who` is `you`. -/
example : ∃ s r, History s [(b!"X", b!"6")] ∧ Handling s r ∧ r.path = b!"/hello/you" ∧ ParamsOf r.query [(b!"x", b!"5"), (b!"_method", b!"PUT")] ∧
    GoodTable plainWords demoTable ∧ GoodEngine plainWords.word demoTreeEnv.engine ∧ PathMatches plainWords.word b!"/hello/:who" (demoTreeEnv.dec r.path) [(b!"who", b!"you")] ∧
    valueOf [(b!"x", b!"5"), (b!"_method", b!"PUT")] [(b!"X", b!"6")] b!"x" = b!"6" ∧ MethodOk b!"put" (valueOf [(b!"x", b!"5"), (b!"_method", b!"PUT")] [(b!"X", b!"6")] b!"_method") ∧
    (s.c.requestParamValue b!"x").1 = b!"6" ∧ (s.c.requestParamValue b!"y").1 = [] := by
  have h : ((historyOf {} [] demoHistory).any fun p => p.1.inEnv && p.1.c.fault == none && p.1.c.st == .sendingHeaders && p.2 == [(b!"X", b!"6")] &&
      ((readys p.1.c.log).getLast?.any fun r => r.path == b!"/hello/you" && parseParams r.query == [(b!"x", b!"5"), (b!"_method", b!"PUT")]) &&
      (p.1.c.requestParamValue b!"x").1 == b!"6" && (p.1.c.requestParamValue b!"y").1 == []) = true := by decide +kernel
  obtain ⟨⟨s, sets⟩, hh, h⟩ := (Option.any_eq_true _ _).1 h
  simp only [Bool.and_eq_true, beq_iff_eq] at h
  obtain ⟨⟨⟨⟨⟨⟨h1, h2⟩, h3⟩, rfl⟩, h5⟩, h6⟩, h7⟩ := h
  obtain ⟨r, hr, h5⟩ := (Option.any_eq_true _ _).1 h5
  simp only [Bool.and_eq_true, beq_iff_eq] at h5
  refine ⟨s, r, historyOf_ok _ _ _ _ _ .start hh, ⟨h1, h2, .inl h3, hr⟩, h5.1, (paramsOf_iff _ _).2 h5.2.symm, demo_table, greedyEngine_good _, ?_, by decide +kernel, ?_, h6, h7⟩
  · refine ⟨_, demo_reads₂, ?_⟩
    show Spec.Fits _ _ r.path _
    rw [h5.1]
    repeat refine .lit _ _ _ _ ?_
    exact .param b!"who" b!"you" [] [] [] (by decide) (by decide) .nil
  · exact .inr (by decide +kernel)

end Pillow.Props
