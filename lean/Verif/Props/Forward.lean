import Verif.Spec.Forward
import Verif.Props.Exact
import Verif.Props.Router
import Verif.Props.Proxy
set_option linter.unusedSimpArgs false
set_option linter.unusedVariables false
/-!
# C64: what the proxy asks upstream; C65: the managers it uses
-/
namespace Pillow.Props
open Pillow Pillow.Spec

theorem qstricmpEq_ascii : ∀ (a b : Bytes), (∀ x ∈ a, x < 128 ∧ x ≠ 0) → (∀ x ∈ b, x < 128 ∧ x ≠ 0) → (qstricmpEq a b = true ↔ SameCI a b)
  | [], [], _, _ => by simp [qstricmpEq, SameCI]
  | [], b :: bs, _, h => by
    have := (h b (by simp)).2
    simp [qstricmpEq, SameCI, this]
  | a :: as, [], h, _ => by
    have := (h a (by simp)).2
    simp [qstricmpEq, SameCI, this]
  | a :: as, b :: bs, ha, hb => by
    have ih := qstricmpEq_ascii as bs (fun x hx => ha x (by simp [hx])) (fun x hx => hb x (by simp [hx]))
    obtain ⟨h1, h2⟩ := ha a (by simp)
    obtain ⟨k1, k2⟩ := hb b (by simp)
    have h4 : ¬ lower a = 0 := fun e => h2 ((lower_ascii a h1).2 e)
    unfold SameCI at ih ⊢
    simp only [qstricmpEq, beq_iff_eq, List.map_cons, List.cons.injEq, latinLower_ascii a h1, latinLower_ascii b k1]
    rw [← ih]
    by_cases e : lower a = lower b
    · rw [if_pos e, if_neg h4]; simp [e]
    · simp [e]

/-- The names of headers in requests: not empty, ASCII, no NUL. -/
def NameOk (h : Header) : Prop := h.name ≠ [] ∧ ∀ b ∈ h.name, b < 128 ∧ b ≠ 0

theorem lastOfEach_filter {hs ks : Headers} (h : LastOfEach hs ks) (hp : ∀ x ∈ hs, NameOk x) (n : Header) (hn : NameOk n) :
    LastOfEach (hs ++ [n]) (ks.filter (fun x => !qstricmpEq x.name n.name) ++ [n]) := by
  induction h with
  | nil => exact .keep n [] [] (by simp) .nil
  | keep h hs ks hne _ ih =>
    have ih := ih (fun x hx => hp x (by simp [hx]))
    have hq := qstricmpEq_ascii h.name n.name (hp h (by simp)).2 hn.2
    rw [List.filter_cons]
    by_cases e : SameCI h.name n.name
    · rw [if_neg (by simp [hq.2 e])]
      exact .drop h _ _ ⟨n, by simp, e.symm⟩ ih
    · have : qstricmpEq h.name n.name = false := by
        cases hh : qstricmpEq h.name n.name
        · rfl
        · exact absurd (hq.1 hh) e
      rw [if_pos (by simp [this])]
      refine .keep h _ _ ?_ ih
      intro x hx
      rcases List.mem_append.1 hx with hx | hx
      · exact hne x hx
      · rw [List.mem_singleton.1 hx]; exact fun k => e k.symm
  | drop h hs ks hex _ ih =>
    obtain ⟨x, hx, hs'⟩ := hex
    exact .drop h _ _ ⟨x, by simp [hx], hs'⟩ (ih (fun x hx => hp x (by simp [hx])))

theorem rawHeaders_last (hs : Headers) (hp : ∀ x ∈ hs, NameOk x) : LastOfEach hs (rawHeaders hs) := by
  induction hs using list_snoc_ind with
  | h0 => exact .nil
  | h1 hs n ih =>
    unfold rawHeaders at ih ⊢
    rw [List.foldl_append]
    simp only [List.foldl_cons, List.foldl_nil]
    rw [setRawHeader, if_neg (hp n (by simp)).1]
    exact lastOfEach_filter (ih fun x hx => hp x (by simp [hx])) (fun x hx => hp x (by simp [hx])) n (hp n (by simp))

theorem tokenChar_ascii : ∀ b : Byte, TokenChar b → b < 128 ∧ b ≠ 0 := by
  intro b h
  obtain ⟨h1, h2, -⟩ := h
  constructor
  · exact UInt8.lt_trans h2 (by decide)
  · rintro rfl; exact absurd h1 (by decide)

theorem plain_of_wf {hd : ReqHead} (h : hd.Wf) : ∀ x ∈ pairs hd.headers, NameOk x := by
  intro x hx
  obtain ⟨l, hl, rfl⟩ := List.mem_map.1 hx
  obtain ⟨h1, h2, -⟩ := h.headers l hl
  exact ⟨h1, fun b hb => tokenChar_ascii b (h2 b hb)⟩

theorem last_epoch_recv {b c : List Ev} {r : ReqView} (hc : ∀ e ∈ c, ∃ bs, e = .recv bs) : ∃ rs, readys (epoch (b ++ .ready r :: c)) = rs ++ [r] := by
  induction c using list_snoc_ind with
  | h0 => rw [epoch_snoc, if_neg (by simp)]; exact ⟨readys (epoch b), by simp [readys, Ev.request]⟩
  | h1 c e ih =>
    obtain ⟨bs, rfl⟩ := hc e (by simp)
    obtain ⟨rs, h⟩ := ih (fun e he => hc e (by simp [he]))
    rw [show b ++ Ev.ready r :: (c ++ [Ev.recv bs]) = (b ++ Ev.ready r :: c) ++ [.recv bs] by simp, epoch_snoc, if_neg (by simp)]
    refine ⟨rs, ?_⟩
    rw [← h]
    simp [readys, Ev.request]

/-- The request with the handler is the last one of the stream. -/
theorem last_sent {s : Conf} (hr : Reach Proper s) {r : ReqView} (hw : WithHandler s.c.log r) : ∃ hd content, LastSent s.c.log hd content ∧ r = hd.shown content := by
  obtain ⟨b, c, hlog, hc⟩ := hw
  obtain ⟨reqs, rest, h1, h2, -⟩ := C13_exact_requests s hr
  obtain ⟨rs, h3⟩ := last_epoch_recv (b := b) (r := r) hc
  rw [← hlog, h2] at h3
  have hlen : (readys (epoch s.c.log)).length = reqs.length := by rw [h2]; simp [shownAll]
  have hne : reqs ≠ [] := by rintro rfl; simp [shownAll] at h3
  obtain ⟨init, ⟨hd, content⟩, rfl⟩ := (⟨reqs.dropLast, reqs.getLast hne, (List.dropLast_concat_getLast hne).symm⟩ : ∃ i x, reqs = i ++ [x])
  refine ⟨hd, content, ⟨init, rest, h1, by rw [hlen]; simp⟩, ?_⟩
  simp only [shownAll, List.map_append, List.map_cons, List.map_nil] at h3
  have := List.append_inj_right' h3 (by simp)
  simpa using this.symm

theorem requests_acceptable {st : Bytes} {reqs : List (ReqHead × Bytes)} {rest : Bytes} (h : Requests st reqs rest) : ∀ x ∈ reqs, Acceptable x.1 x.2.length := by
  induction h with
  | nil => simp
  | cons hd ct st reqs rest ha _ ih =>
    intro x hx
    rcases List.mem_cons.1 hx with rfl | hx
    · exact ha
    · exact ih x hx

theorem lastSent_wf {log : List Ev} {hd : ReqHead} {content : Bytes} (h : LastSent log hd content) : hd.Wf := by
  obtain ⟨reqs, rest, h1, -⟩ := h
  exact (requests_acceptable h1 (hd, content) (by simp)).wf

theorem shown_parts (hd : ReqHead) (content : Bytes) : let r := hd.shown content
    r.method = hd.method ∧ r.content = content ∧ r.path = hd.target.path ∧ r.query = hd.target.query ∧ r.fragment = hd.fragment.getD [] ∧ r.headers = pairs hd.headers := by
  unfold ReqHead.shown
  dsimp only
  split <;> exact ⟨rfl, rfl, rfl, rfl, rfl, rfl⟩

/-! ### C64 -/

/-- C64: without a proxied url the handler leaves the request alone; otherwise it asks upstream. -/
theorem C64_accepts (proxied : TargetUrl) (r : ReqView) :
    proxyHandle proxied r = none ↔ proxied.base = [] ∧ proxied.path = [] ∧ (∀ q, proxied.query = some q → q = []) ∧ (∀ f, proxied.fragment = some f → f = []) := by
  have h : proxyHandle proxied r = none ↔ proxied.isEmpty = true := by unfold proxyHandle; split <;> simp [*]
  rw [h]
  obtain ⟨b, p, q, f⟩ := proxied
  cases q <;> cases f <;> simp [TargetUrl.isEmpty, and_assoc]

/-- C64: whenever a request is with the proxy, what it asks upstream is determined by the last request among the bytes of its client (`Forwards`). -/
theorem C64_forwards (s : Conf) (hr : Reach Proper s) (r : ReqView) (hw : WithHandler s.c.log r) (proxied : TargetUrl) (out : ProxiedRequest) (ho : proxyHandle proxied r = some out) :
    ∃ hd content, LastSent s.c.log hd content ∧ Forwards proxied hd content out := by
  obtain ⟨hd, content, hl, hv⟩ := last_sent hr hw
  have hwf := lastSent_wf hl
  obtain ⟨v1, v3, v4, v5, v6, v7⟩ := shown_parts hd content
  rw [← hv] at v1 v3 v4 v5 v6 v7
  refine ⟨hd, content, hl, ?_⟩
  unfold proxyHandle at ho
  split at ho
  · cases ho
  injection ho with ho
  subst ho
  refine ⟨v1, ?_, ?_, ?_, ?_, ?_, ?_⟩
  · dsimp only
    rw [v3]
    split
    · rfl
    · rename_i k; cases content with
      | nil => rfl
      | cons => simp at k
  · simp only [targetUrl]; split <;> split <;> rfl
  · rw [← v4]; simp only [targetUrl]; split <;> split <;> rfl
  · rw [← v5]; simp only [targetUrl]
    by_cases e : r.query = [] <;> by_cases e' : r.fragment = [] <;> simp [e, e']
  · rw [← v6]; simp only [targetUrl]
    by_cases e : r.query = [] <;> by_cases e' : r.fragment = []
    all_goals simp [e, e']
    all_goals
      cases hf : hd.fragment with
      | none => rw [hf] at v6; simp at v6; exact absurd v6 e'
      | some f => rw [hf] at v6; simpa using v6
  · rw [← v7]
    exact rawHeaders_last _ (by rw [v7]; exact plain_of_wf hwf)

theorem lastOfEach_distinct {hs ks : Headers} (h : LastOfEach hs ks) (hd : hs.Pairwise fun x y => ¬ SameCI x.name y.name) : ks = hs := by
  induction h with
  | nil => rfl
  | keep h hs ks _ _ ih => rw [ih (List.pairwise_cons.1 hd).2]
  | drop h hs ks hex _ ih =>
    obtain ⟨x, hx, e⟩ := hex
    exact absurd e.symm ((List.pairwise_cons.1 hd).1 x hx)

/-- C64, where nothing is lost: if the client asks for a path, the configured url has no query and no fragment, no two headers have the same name, and neither query nor fragment of the
request is there but empty, then upstream is asked for exactly the target the client asked for, with its method, its headers in their order and its content.
Missing: what is shown by `C64_duplicates_lost` and `C64_absolute_lost`. -/
theorem C64_same_partial (s : Conf) (hr : Reach Proper s) (r : ReqView) (hw : WithHandler s.c.log r) (proxied : TargetUrl) (hq : proxied.query = none) (hfr : proxied.fragment = none)
    (out : ProxiedRequest) (ho : proxyHandle proxied r = some out) :
    ∃ hd content, LastSent s.c.log hd content ∧
      (∀ p q, hd.target = .origin p q → q ≠ some [] → hd.fragment ≠ some [] → DistinctNames hd.headers →
        urlText out.url = proxied.base ++ hd.target.uri ++ fragText hd.fragment ∧ out.verb = hd.method ∧ out.headers = pairs hd.headers ∧ out.body.getD [] = content) := by
  obtain ⟨hd, content, h1, h2⟩ := C64_forwards s hr r hw proxied out ho
  refine ⟨hd, content, h1, fun p q ht hq' hf' hdn => ⟨?_, h2.verb, lastOfEach_distinct h2.headers ?_, h2.body⟩⟩
  · unfold urlText
    rw [h2.base, h2.path, h2.query, h2.fragment, ht, hq, hfr]
    have hfrag : (if hd.fragment.getD [] = [] then none else hd.fragment : Option Bytes) = hd.fragment := by
      cases hf : hd.fragment with
      | none => simp
      | some f =>
        have : f ≠ [] := fun e => hf' (by rw [hf, e])
        simp [this]
    rw [hfrag]
    cases q with
    | none =>
      simp only [Target.path, Target.query, Target.uri, if_true, List.append_nil]
      cases hd.fragment <;> rfl
    | some q =>
      have hne : q ≠ [] := fun e => hq' (by rw [e])
      rw [show (Target.origin p (some q)).query = q from rfl, if_neg hne]
      cases hd.fragment <;> simp [fragText, Target.path, Target.uri]
  · unfold pairs
    exact List.pairwise_map.2 hdn

theorem path_open {p q : Phase} {es : List Ev} (h : Path true p es q) {r : ReqView} (hp : p = .busy r ∨ (∃ h n, p = .sending r h n) ∨ ∃ h, p = .ended r h)
    (hne : ∀ e ∈ es, e ≠ .completed ∧ ∀ f u, e ≠ .closed f u) : q = .busy r ∨ (∃ h n, q = .sending r h n) ∨ ∃ h, q = .ended r h := by
  induction h with
  | nil => exact hp
  | cons p m q e es hn _ ih =>
    refine ih ?_ (fun e he => hne e (by simp [he]))
    obtain ⟨n1, n2⟩ := hne e (by simp)
    cases hn with
    | init _ hp' => rcases hp' with rfl | rfl <;> simp at hp
    | recv => exact hp
    | interim => simp at hp
    | ready => simp at hp
    | error => simp at hp
    | head r' h =>
      have : r' = r := by simpa using hp
      subst this
      split <;> simp
    | body r' h n =>
      have : r' = r := by simpa using hp
      subst this
      split <;> simp
    | chunk r' h n =>
      have : r' = r := by simpa using hp
      subst this
      simp
    | lastChunk r' h n =>
      have : r' = r := by simpa using hp
      subst this
      simp
    | completed => exact absurd rfl n1
    | completedOpen => exact absurd rfl n1
    | forced => exact absurd rfl (n2 _ _)
    | drained => exact absurd rfl (n2 _ _)
    | again => simp at hp

/-- C64: the content the proxy sends upstream is read from the connection, whenever upstream is ready for it. As long as the response is not ended these are the bytes that
were there when the request was handed to the proxy, whatever else the client sends meanwhile. -/
theorem C64_body (s : Conf) (hr : Reach Proper s) (he : s.inEnv = true) (hf : s.c.fault = none) (a : List Ev) (r : ReqView) (hw : WithHandler a r) (ho : Open a s.c.log) :
    s.c.req = r ∧ s.c.viewsValid = true := by
  obtain ⟨b, hlog, hb⟩ := ho
  obtain ⟨ph, hruns, hne, hph⟩ := reach_phase hr he hf
  rw [hlog] at hruns
  obtain ⟨q, h1, h2⟩ := runs_split hruns
  have := withHandler_busy hw h1
  subst this
  have key := path_open h2 (.inl rfl) hb
  rcases hph with ⟨hs, -⟩ | ⟨rfl, -⟩
  · have hst : s.c.st = .sendingHeaders ∨ s.c.st = .sendingContent := by
      cases hst : s.c.st with
      | uninitialized => rw [Settled, hst] at hs; simp at hs; rw [hs.1] at key; simp at key
      | receivingHeaders => have := (settled_recvH hst).1 hs; rw [this.1] at key; simp at key
      | receivingContent => obtain ⟨_, _, _, _, k, _⟩ := (settled_recvC hst).1 hs; rw [k.phase] at key; simp at key
      | sendingHeaders => simp
      | sendingContent => simp
      | completed =>
        rw [Settled, hst] at hs
        obtain ⟨k, -⟩ := hs
        split at k <;> rw [k] at key <;> simp at key
      | flushing => rw [Settled, hst] at hs; rw [hs.1] at key; simp at key
      | closed => rw [Settled, hst] at hs; rw [hs.1] at key; simp at key
    rcases hst with e | e
    · obtain ⟨rfl, -, -, -, -, h6, -⟩ := (settled_sendH e).1 hs
      exact ⟨by simpa using key, h6⟩
    · obtain ⟨h, n, rfl, -, -, -, -, -, h7⟩ := (settled_sendC e).1 hs
      exact ⟨by simpa using key, h7⟩
  · simp at key

/-- A connection on which the request was handed out last, in a given state. -/
theorem handed {ls : List Label} {p : Conf → Bool}
    (h : endsIn Proper ls (fun s => (match s.c.log.getLast? with | some (.ready r) => r == s.c.req | _ => false) && p s) = true) :
    ∃ s, Reach Proper s ∧ WithHandler s.c.log s.c.req ∧ p s = true := by
  obtain ⟨s, h1, h2⟩ := exists_of_endsIn h
  simp only [Bool.and_eq_true] at h2
  obtain ⟨h2, h3⟩ := h2
  refine ⟨s, h1, ?_, h3⟩
  split at h2
  · rename_i r hl
    obtain ⟨b, hb⟩ := List.getLast?_eq_some_iff.1 hl
    refine ⟨b, [], ?_, by simp⟩
    rw [hb, ← beq_iff_eq.1 h2]
  · cases h2

def upstreamUrl : TargetUrl := { base := b!"http://10.0.0.1:8080" }

/-- The hypotheses of `C64_same_partial` (and of `C64_forwards`): a request with a query and content, forwarded as it is. -/
example : ∃ s, Reach Proper s ∧ WithHandler s.c.log s.c.req ∧
    (received s.c.log == b!"POST /a/b?x=1 HTTP/1.1\r\nHost: h\r\nContent-Length: 2\r\n\r\nhi" &&
      match proxyHandle upstreamUrl s.c.req with
      | some out => urlText out.url == b!"http://10.0.0.1:8080/a/b?x=1" && out.verb == b!"POST" && out.headers == [⟨b!"Host", b!"h"⟩, ⟨b!"Content-Length", b!"2"⟩] && out.body == some b!"hi"
      | none => false) = true :=
  handed (ls := [.init, .recv b!"POST /a/b?x=1 HTTP/1.1\r\nHost: h\r\nContent-Length: 2\r\n\r\nhi", .call .processInput] ++ taus 4) (by decide +kernel)

/-- The hypotheses of `C64_same_partial` on the head. -/
example : DistinctNames [⟨b!"Host", 1, b!"h"⟩, ⟨b!"Content-Length", 1, b!"2"⟩] := by
  unfold DistinctNames
  rw [List.pairwise_cons]
  refine ⟨fun y hy => ?_, by simp⟩
  rw [List.mem_singleton.1 hy]
  decide

/-- C64 is false of the code for repeated headers: of two cookies only the last one is forwarded. -/
theorem C64_duplicates_lost : ∃ s, Reach Proper s ∧ WithHandler s.c.log s.c.req ∧
    (received s.c.log == b!"GET /a HTTP/1.1\r\nCookie: a=1\r\ncookie: b=2\r\n\r\n" && s.c.req.headers == [⟨b!"Cookie", b!"a=1"⟩, ⟨b!"cookie", b!"b=2"⟩] &&
      match proxyHandle upstreamUrl s.c.req with
      | some out => out.headers == [⟨b!"cookie", b!"b=2"⟩]
      | none => false) = true :=
  handed (ls := [.init, .recv b!"GET /a HTTP/1.1\r\nCookie: a=1\r\ncookie: b=2\r\n\r\n", .call .processInput] ++ taus 3) (by decide +kernel)

/-- C64 is false of the code for absolute targets: path and query of the client are not forwarded. -/
theorem C64_absolute_lost : ∃ s, Reach Proper s ∧ WithHandler s.c.log s.c.req ∧
    (received s.c.log == b!"GET http://h/a?x=1 HTTP/1.1\r\n\r\n" && s.c.req.uri == b!"http://h/a?x=1" &&
      match proxyHandle upstreamUrl s.c.req with
      | some out => urlText out.url == b!"http://10.0.0.1:8080"
      | none => false) = true :=
  handed (ls := [.init, .recv b!"GET http://h/a?x=1 HTTP/1.1\r\n\r\n", .call .processInput] ++ taus 3) (by decide +kernel)

/-- The hypotheses of `C64_body`: the response has begun, and the next request of the client has arrived. -/
example : ∃ s, Reach Proper s ∧ s.inEnv = true ∧ s.c.fault = none ∧ ∃ a, WithHandler a s.c.req ∧ Open a s.c.log ∧ s.c.st = .sendingContent ∧ s.c.req.content = b!"hi" := by
  obtain ⟨s, h1, h2⟩ := exists_of_endsIn (allowed := Proper)
    (ls := [.init, .recv b!"POST /a HTTP/1.1\r\nContent-Length: 2\r\n\r\nhi", .call .processInput] ++ taus 4 ++
      [.call (.writeHeaders 200 []), .tau 0, .tau 0, .tau 0, .recv b!"GET /b HTTP/1.1\r\n\r\n"])
    (p := fun s => s.inEnv && s.c.fault == none && s.c.st == .sendingContent && s.c.req.content == b!"hi" &&
      match s.c.log with
      | [.init, .recv _, .ready r, .head _, .recv _] => r == s.c.req
      | _ => false) (by decide +kernel)
  simp only [Bool.and_eq_true, beq_iff_eq] at h2
  obtain ⟨⟨⟨⟨k1, k2⟩, k3⟩, k4⟩, k5⟩ := h2
  refine ⟨s, h1, k1, k2, ?_⟩
  split at k5
  · rename_i x r h y hl
    refine ⟨[.init, .recv x, .ready r], ⟨[.init, .recv x], [], by rw [← beq_iff_eq.1 k5]; rfl, by simp⟩, ⟨[.head h, .recv y], by rw [hl]; rfl, ?_⟩, k3, k4⟩
    simp
  · cases k5

/-! ### C65 -/

theorem create_flatten (e : Elastic) (id : Nat) : (e.create id).flatten.Perm (e.flatten ++ [id]) := by
  induction e with
  | nil => exact List.Perm.refl _
  | cons m ms ih =>
    unfold Elastic.create
    split
    · simp only [List.flatten_cons, List.append_assoc]
      exact List.Perm.append_left m (List.perm_append_comm)
    · simp only [List.flatten_cons, List.append_assoc]
      exact List.Perm.append_left m ih

theorem create_six (e : Elastic) (id : Nat) (h : ∀ m ∈ e, m.length ≤ 6) : ∀ m ∈ e.create id, m.length ≤ 6 := by
  induction e with
  | nil => simp [Elastic.create]
  | cons m ms ih =>
    unfold Elastic.create
    split
    · rename_i hl
      intro x hx
      rcases List.mem_cons.1 hx with rfl | hx
      · simp; omega
      · exact h x (by simp [hx])
    · intro x hx
      rcases List.mem_cons.1 hx with rfl | hx
      · exact h _ (by simp)
      · exact ih (fun m hm => h m (by simp [hm])) x hx

/-- A manager is added only if all are full. -/
theorem create_length (e : Elastic) (id : Nat) (h : ∀ m ∈ e, m.length ≤ 6) :
    (e.create id).length = e.length ∨ ((e.create id).length = e.length + 1 ∧ e.flatten.length = 6 * e.length) := by
  induction e with
  | nil => right; simp [Elastic.create]
  | cons m ms ih =>
    unfold Elastic.create
    split
    · left; simp
    · rename_i hl
      have hm := h m (by simp)
      rcases ih (fun m hm => h m (by simp [hm])) with k | ⟨k1, k2⟩
      · left; simp [k]
      · right; refine ⟨by simp [k1], ?_⟩
        simp only [List.flatten_cons, List.length_append, List.length_cons, k2]
        omega

theorem delete_flatten (e : Elastic) (id : Nat) : (e.delete id).flatten = e.flatten.filter (· ≠ id) := by
  unfold Elastic.delete
  rw [List.filter_flatten]

theorem elastic_inv {ops : List ElasticOp} {live : List Nat} (ha : Alive ops live) :
    (∀ m ∈ ops.foldl Elastic.step [], m.length ≤ 6) ∧ ((ops.foldl Elastic.step []).flatten.Perm live) ∧ live.Nodup ∧ (∀ id ∈ live, .create id ∈ ops) := by
  induction ha with
  | nil => simp
  | create ops live id _ hn ih =>
    obtain ⟨h1, h2, h3, h4⟩ := ih
    rw [List.foldl_append]
    refine ⟨create_six _ _ h1, (create_flatten _ _).trans (List.Perm.append_right _ h2), ?_, ?_⟩
    · rw [List.nodup_append]
      refine ⟨h3, by simp, ?_⟩
      intro a hal b hb
      rw [List.mem_singleton.1 hb]
      rintro rfl
      exact hn (h4 _ hal)
    · intro x hx
      rcases List.mem_append.1 hx with hx | hx
      · exact List.mem_append.2 (.inl (h4 x hx))
      · rw [List.mem_singleton.1 hx]; simp
  | delete ops live id _ ih =>
    obtain ⟨h1, h2, h3, h4⟩ := ih
    rw [List.foldl_append]
    refine ⟨?_, ?_, h3.filter _, fun x hx => List.mem_append.2 (.inl (h4 x (List.mem_filter.1 hx).1))⟩
    · intro m hm
      obtain ⟨m', hm', rfl⟩ := List.mem_map.1 hm
      exact Nat.le_trans (List.length_filter_le _ _) (h1 m' hm')
    · show (Elastic.delete id _).flatten.Perm _
      rw [delete_flatten]
      exact h2.filter _

/-- C65: no manager ever has more than six requests under way (the number of connections Qt opens to one server), so no request waits for another. -/
theorem C65_six (ops : List ElasticOp) (live : List Nat) (ha : Alive ops live) : ∀ m ∈ ops.foldl Elastic.step [], m.length ≤ 6 := (elastic_inv ha).1

/-- C65: every request that is under way is with exactly one manager, and only those are. -/
theorem C65_each_once (ops : List ElasticOp) (live : List Nat) (ha : Alive ops live) : (ops.foldl Elastic.step []).flatten.Perm live ∧ live.Nodup :=
  ⟨(elastic_inv ha).2.1, (elastic_inv ha).2.2.1⟩

theorem atMost_prefix {ops : List ElasticOp} {op : ElasticOp} {n : Nat} (h : AtMost (ops ++ [op]) n) : AtMost ops n :=
  fun b a live e hl => h b (a ++ [op]) live (by rw [e]; simp) hl

/-- C65: there are no more managers than the largest number of requests that were under way together needs: with at most `n` at a time, at most `n / 6` rounded up. -/
theorem C65_managers (ops : List ElasticOp) (live : List Nat) (ha : Alive ops live) (n : Nat) (hn : AtMost ops n) : (ops.foldl Elastic.step []).length ≤ (n + 5) / 6 := by
  induction ha with
  | nil => simp
  | create ops live id ha' hid ih =>
    have ih := ih (atMost_prefix hn)
    obtain ⟨h1, h2, -, -⟩ := elastic_inv ha'
    have hl := hn (ops ++ [.create id]) [] (live ++ [id]) (by simp) (.create ops live id ha' hid)
    rw [List.foldl_append]
    show (Elastic.create id _).length ≤ _
    rcases create_length _ id h1 with k | ⟨k1, k2⟩
    · rw [k]; exact ih
    · rw [k1]
      have := h2.length_eq
      simp only [List.length_append, List.length_cons, List.length_nil] at hl
      omega
  | delete ops live id _ ih =>
    rw [List.foldl_append]
    show (Elastic.delete id _).length ≤ _
    unfold Elastic.delete
    rw [List.length_map]
    exact ih (atMost_prefix hn)

/-- The hypotheses of C65: eight requests, the second deleted, then another one: two managers, the new request goes to the first. -/
example : Alive ((List.range 8).map ElasticOp.create ++ [ElasticOp.delete 1, ElasticOp.create 8]) [0, 2, 3, 4, 5, 6, 7, 8] ∧
    ((List.range 8).map ElasticOp.create ++ [ElasticOp.delete 1, ElasticOp.create 8]).foldl Elastic.step [] = [[0, 2, 3, 4, 5, 8], [6, 7]] := by
  refine ⟨?_, by decide⟩
  have h : ∀ n, Alive ((List.range n).map .create) (List.range n) := by
    intro n
    induction n with
    | zero => exact .nil
    | succ n ih =>
      rw [List.range_succ, List.map_append]
      exact .create _ _ _ ih (by simp)
  have h8 := Alive.create _ _ 8 (Alive.delete _ _ 1 (h 8)) (by decide)
  exact h8

end Pillow.Props
