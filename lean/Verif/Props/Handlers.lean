import Verif.Spec.Handler
import Verif.Props.Serve
set_option linter.unusedSimpArgs false
set_option linter.unusedVariables false
/-!
# C29 (handler stack), C48 (request log), C52 (fixed and 404 handlers)
-/
namespace Pillow.Props
open Pillow Pillow.Spec

/-! ### C29 -/

/-- C29: either some handler accepts, all before it were asked in order and refused, and nothing happens after it; or all were
asked in order and refused.  `W` is everything there is, so a handler that is not asked has no effect at all. -/
theorem C29_stack {W : Type} (children : List (Option (HandlerFn W))) : ∀ (w : W),
    (∃ pre h post w1 w2, children.filterMap id = pre ++ h :: post ∧ AllRefuse pre w w1 ∧ h w1 = (true, w2) ∧
      stackHandle children w = (true, w2)) ∨
    (∃ w1, AllRefuse (children.filterMap id) w w1 ∧ stackHandle children w = (false, w1)) := by
  induction children with
  | nil => intro w; exact .inr ⟨w, .nil w, rfl⟩
  | cons c cs ih =>
    intro w
    cases c with
    | none => simpa [stackHandle] using ih w
    | some h =>
      cases hh : h w with
      | mk b w' =>
        cases b with
        | true => exact .inl ⟨[], h, cs.filterMap id, w, w', by simp, .nil w, hh, by simp [stackHandle, hh]⟩
        | false =>
          rcases ih w' with ⟨pre, g, post, w1, w2, h1, h2, h3, h4⟩ | ⟨w1, h1, h2⟩
          · exact .inl ⟨h :: pre, g, post, w1, w2, by simp [h1], .cons h pre w w' w1 hh h2, h3, by simp [stackHandle, hh, h4]⟩
          · exact .inr ⟨w1, by simpa using AllRefuse.cons h _ w w' w1 hh h1, by simp [stackHandle, hh, h2]⟩

theorem allRefuse_det {W : Type} {hs : List (HandlerFn W)} {w w1 w2 : W} (h : AllRefuse hs w w1) (h' : AllRefuse hs w w2) : w1 = w2 := by
  induction h with
  | nil w => cases h'; rfl
  | cons h hs w w' w'' e _ ih =>
    cases h' with
    | cons _ _ _ u _ e' k => rw [e] at e'; cases e'; exact ih k

/-- C29: the stack returns true exactly if some handler, asked in its turn, returns true. -/
theorem C29_returns {W : Type} (children : List (Option (HandlerFn W))) (w : W) :
    (stackHandle children w).1 = true ↔
      ∃ pre h post w1, children.filterMap id = pre ++ h :: post ∧ AllRefuse pre w w1 ∧ (h w1).1 = true := by
  constructor
  · intro ht
    rcases C29_stack children w with ⟨pre, h, post, w1, w2, h1, h2, h3, -⟩ | ⟨w1, h1, h2⟩
    · exact ⟨pre, h, post, w1, h1, h2, by rw [h3]⟩
    · rw [h2] at ht; cases ht
  · rintro ⟨pre, h, post, w1, h1, h2, h3⟩
    rcases C29_stack children w with ⟨_, _, _, _, _, _, _, _, h4⟩ | ⟨w2, h4, -⟩
    · rw [h4]
    · rw [h1] at h4
      have : ∀ {pre : List (HandlerFn W)} {w w1 : W}, AllRefuse pre w w1 → ∀ {w2}, AllRefuse (pre ++ h :: post) w w2 → (h w1).1 = false := by
        intro pre w w1 hp
        induction hp with
        | nil w => intro w2 k; cases k with | cons _ _ _ _ _ e _ => rw [e]
        | cons g gs w w' w'' e _ ih =>
          intro w2 k
          cases k with
          | cons _ _ _ u _ e' k' => rw [e] at e'; cases e'; exact ih k'
      rw [this h2 h4] at h3; cases h3

/-- C29: which handlers are called, and in which order: with every handler noting its position, the notes are `0, 1, …` up to the
one that accepts (or all of them). -/
theorem C29_order {W : Type} (hs : List (HandlerFn W)) (w : W) :
    ∃ k, k ≤ hs.length ∧
      (stackHandle ((hs.zipIdx.map fun p => some (noting p.2 p.1))) (w, [])).2.2 = List.range k ∧
      ((stackHandle (hs.zipIdx.map fun p => some (noting p.2 p.1)) (w, [])).1 = false → k = hs.length) := by
  have key : ∀ (hs : List (HandlerFn W)) (n : Nat) (w : W) (l : List Nat), ∃ k, k ≤ hs.length ∧
      (stackHandle ((hs.zipIdx n).map fun p => some (noting p.2 p.1)) (w, l)).2.2 = l ++ List.range' n k ∧
      ((stackHandle ((hs.zipIdx n).map fun p => some (noting p.2 p.1)) (w, l)).1 = false → k = hs.length) := by
    intro hs
    induction hs with
    | nil => intro n w l; exact ⟨0, by simp [stackHandle]⟩
    | cons h hs ih =>
      intro n w l
      cases hh : h w with
      | mk b w' =>
        cases b with
        | true => exact ⟨1, by simp [stackHandle, noting, hh]⟩
        | false =>
          obtain ⟨k, h1, h2, h3⟩ := ih (n + 1) w' (l ++ [n])
          refine ⟨k + 1, by simp; omega, ?_, ?_⟩
          · simp only [List.zipIdx_cons, List.map_cons, stackHandle, noting, hh]
            rw [if_neg (by simp), h2]; simp [List.range'_succ]
          · simp only [List.zipIdx_cons, List.map_cons, stackHandle, noting, hh]
            rw [if_neg (by simp)]; intro hf; simp [h3 hf]
  obtain ⟨k, h1, h2, h3⟩ := key hs 0 w []
  exact ⟨k, h1, by rw [h2, List.nil_append, List.range_eq_range'], h3⟩

/-- C29: a handler made of a function takes every request that reaches it and does what the function does, and one without a
function is as if it were not there. -/
theorem C29_function {W : Type} (pre post : List (Option (HandlerFn W))) (f : Option (W → W)) (w : W) :
    stackHandle (pre ++ some (functionHandle f) :: post) w =
      match f with
      | some g => if (stackHandle pre w).1 then stackHandle pre w else (true, g (stackHandle pre w).2)
      | none => stackHandle (pre ++ post) w := by
  induction pre generalizing w with
  | nil => cases f <;> simp [stackHandle, functionHandle]
  | cons c cs ih =>
    cases c with
    | none =>
      have := ih w
      simp only [List.cons_append, stackHandle]
      exact this
    | some h =>
      by_cases hb : (h w).1 = true
      · have e : ∀ l, stackHandle (some h :: l) w = (true, (h w).2) := fun l => by rw [stackHandle]; exact if_pos hb
        rw [List.cons_append, List.cons_append, e, e, e]
        cases f <;> rfl
      · have e : ∀ l, stackHandle (some h :: l) w = stackHandle l (h w).2 := fun l => by rw [stackHandle]; exact if_neg hb
        rw [List.cons_append, List.cons_append, e, e, e]
        exact ih (h w).2

/-- Stacks can be nested: a stack in a stack behaves like its children in its place. -/
theorem C29_nested {W : Type} (a b c : List (Option (HandlerFn W))) (w : W) :
    stackHandle (a ++ some (stackHandle b) :: c) w = stackHandle (a ++ b ++ c) w := by
  have app : ∀ (a b : List (Option (HandlerFn W))) (w : W), stackHandle (a ++ b) w =
      if (stackHandle a w).1 then stackHandle a w else stackHandle b (stackHandle a w).2 := by
    intro a
    induction a with
    | nil => intro b w; simp [stackHandle]
    | cons x xs ih =>
      intro b w
      cases x with
      | none => simp only [List.cons_append, stackHandle]; exact ih b w
      | some h =>
        cases hh : h w with
        | mk t w' => cases t <;> simp [stackHandle, hh, ih]
  rw [List.append_assoc, app a, app a, app b]
  split
  · rfl
  · cases hb : stackHandle b (stackHandle a w).2 with
    | mk t w' => cases t <;> simp [stackHandle, hb]

/-- Three handlers, the second accepts: the third is not called. -/
example : stackHandle (W := List Nat) [some fun w => (false, w ++ [1]), none, some fun w => (true, w ++ [2]), some fun w => (true, w ++ [3])] []
    = (true, [1, 2]) := rfl

/-! ### C52 -/

theorem answered_replies {f : ReqView → Answer} (hf : Sane f) (status : Int) (content : ReqView → Bytes) :
    ∀ (rs : List ReqView), (∀ r ∈ rs, f r = ⟨status, [], content r⟩) → Answered status content rs (replies f rs) := by
  intro rs
  induction rs with
  | nil => intro _; exact .nil
  | cons r rs ih =>
    intro h
    have hr := h r (by simp)
    have hsome : (buildHead [] (r.version == b!"HTTP/1.1") r (f r).content.length false (f r).status (f r).headers).isSome = true := by
      unfold buildHead
      simp only [List.nil_append]
      have sp := scan_spec (f r).headers { out := statusLine r (f r).status, len := ((f r).content.length : Int) }
      rw [sp.len, lengthLine_isSome _ (by have := (hf r).2; rw [sane_len hf]; omega)]
      rfl
    obtain ⟨hd, hh⟩ := Option.isSome_iff_exists.1 hsome
    have facts := headFor_facts hf (show HeadFor f r hd from hh)
    have sp := head_spec hh
    rw [hr] at sp facts
    have : replies f (r :: rs) = interimFor r ++ (hd.bytes ++ (if r.method = b!"HEAD" then [] else content r)) ++ replies f rs := by
      simp only [replies, List.map_cons, List.flatten_cons, facts.2.2]
    rw [this]
    exact .cons r rs hd _ sp (ih fun r hr => h r (by simp [hr]))

theorem served_gentle {h : ReqView → Reply} {s : Conf} (hr : Reach (ServedBy h) s) : Reach Gentle s := by
  induction hr with
  | start => exact .start
  | step s s' l _ ha hs ih => exact .step s s' l ih ha.1 hs

theorem served_serves {h : ReqView → Reply} {f : ReqView → Answer} (hf : ∀ s, Reach Gentle s → s.inEnv = true → s.c.fault = none →
      s.c.st = .sendingHeaders → (h s.c.req).calls = [.writeResponse (f s.c.req).status (f s.c.req).headers (f s.c.req).content])
    (hone : ∀ r, ∃ st hs ct, (h r).calls = [.writeResponse st hs ct])
    {s : Conf} (hr : Reach (ServedBy h) s) : Reach (Serves f) s := by
  induction hr with
  | start => exact .start
  | step s s' l hr ha hs ih =>
    refine .step s s' l ih ⟨ha.1, ?_⟩ hs
    have hg := served_gentle hr
    have key : ∀ a, l = .call a → Writes a → ∃ st hs ct, a = .writeResponse st hs ct := by
      intro a e hw
      have hm := ha.2 a e hw
      obtain ⟨st, hs, ct, he⟩ := hone s.c.req
      rw [he] at hm
      exact ⟨st, hs, ct, by simpa using hm⟩
    split
    · rename_i st hs' ct
      intro hst
      have hm := ha.2 _ rfl trivial
      unfold Conf.step at hs
      split at hs
      · cases hs
      · rename_i hflt
        simp only at hs
        split at hs
        · rename_i henv
          rw [hf s hg henv (by simpa using hflt) hst] at hm
          simp at hm
          obtain ⟨h1, h2, h3⟩ := hm
          cases hfr : f s.c.req; simp_all
        · cases hs
    · obtain ⟨_, _, _, e⟩ := key _ rfl trivial; cases e
    · obtain ⟨_, _, _, e⟩ := key _ rfl trivial; cases e
    · obtain ⟨_, _, _, e⟩ := key _ rfl trivial; cases e
    · trivial

/-- What a handler that always answers `status` without headers does to a connection. -/
def AlwaysAnswers (status : Int) (content : ReqView → Bytes) (h : ReqView → Reply) : Prop :=
  (∀ r, (h r).handled = true) ∧
  ∀ s, Reach (ServedBy h) s →
    (Waiting s → ∃ w, Answered status content (readys (epoch s.c.log)) w ∧
      wireOf (epoch s.c.log) = w ++ (if interimSince s.c.log then continueBytes else [])) ∧
    (MustClose s.c.log ∨ (∃ u, Ev.closed false u ∈ epoch s.c.log) → ∃ w, Answered status content (readys (epoch s.c.log)) w ∧
      (wireOf (epoch s.c.log) = w ∨ ∃ code, Ev.errorReply code ∈ epoch s.c.log ∧ wireOf (epoch s.c.log) = w ++ errorReplyBytes code))

theorem always_of {status : Int} {content : ReqView → Bytes} {h : ReqView → Reply} {f : ReqView → Answer} (hs : Sane f)
    (hh : ∀ r, (h r).handled = true) (hone : ∀ r, ∃ st hs ct, (h r).calls = [.writeResponse st hs ct])
    (hf : ∀ s, Reach Gentle s → s.inEnv = true → s.c.fault = none →
      s.c.st = .sendingHeaders → (h s.c.req).calls = [.writeResponse (f s.c.req).status (f s.c.req).headers (f s.c.req).content])
    (hc : ∀ s, Reach Gentle s → ∀ r ∈ readys (epoch s.c.log), f r = ⟨status, [], content r⟩) : AlwaysAnswers status content h := by
  refine ⟨hh, fun s hr => ?_⟩
  have hr' := served_serves hf hone hr
  obtain ⟨h1, h2⟩ := C08_responses f hs s hr'
  have ha := answered_replies hs status content _ (hc s (served_gentle hr))
  refine ⟨fun hw => ⟨_, ha, (h1 hw).2⟩, fun hd => ⟨_, ha, ?_⟩⟩
  rcases h2 hd with ⟨code, k1, -, k3⟩ | ⟨-, pre, r, -, -, -, k⟩
  · exact .inr ⟨code, k1, k3⟩
  · exact .inl k

/-- C52: `HttpHandlerFixed` reports every request handled, and a connection it serves writes, for each request, exactly one response
with the configured status and content.  (A `QByteArray` is always shorter than 2 GiB.) -/
theorem C52_fixed (status : Int) (content : Bytes) (hl : content.length < 2147483648) :
    AlwaysAnswers status (fun _ => content) (fixedHandle status content) :=
  always_of (f := fun _ => ⟨status, [], content⟩) (fun _ => ⟨rfl, by simpa using (by omega : (content.length : Int) < 2147483648)⟩)
    (fun _ => rfl) (fun _ => ⟨_, _, _, rfl⟩) (fun _ _ _ _ _ => rfl) (fun _ _ _ _ => rfl)

theorem requests_short {st : Bytes} {reqs : List (ReqHead × Bytes)} {rest : Bytes} (h : Requests st reqs rest) :
    ∀ r ∈ shownAll reqs, r.path.length ≤ headLimit := by
  induction h with
  | nil => intro r hr; simp [shownAll] at hr
  | cons hd content st reqs rest ha _ ih =>
    intro r hr
    simp only [shownAll, List.map_cons, List.mem_cons] at hr
    rcases hr with rfl | hr
    · have h1 : (hd.shown content).path = hd.target.path := by unfold ReqHead.shown; split <;> rfl
      have h2 : hd.target.path.length ≤ hd.target.uri.length := by
        cases hd.target with
        | star => simp [Target.path]
        | absolute s r => simp [Target.path]
        | origin p q => cases q <;> simp [Target.path, Target.uri]
      have h3 : hd.target.uri.length ≤ hd.render.length := by unfold ReqHead.render; simp; omega
      have := ha.short
      show (hd.shown content).path.length ≤ headLimit
      rw [h1]; omega
    · exact ih r hr

theorem path_short {s : Conf} (h : Reach Proper s) : ∀ r ∈ readys (epoch s.c.log), r.path.length ≤ headLimit := by
  obtain ⟨reqs, rest, h1, h2, -⟩ := C13_exact_requests s h
  rw [h2]; exact requests_short h1

theorem req_mem {lo : Bool} {log : List Ev} {ph : Phase} (hr : Runs lo log ph) : ∀ r, ph.req = some r → r ∈ readys (epoch log) := by
  induction hr with
  | start => intro r h; cases h
  | step log p p' e hr hn ih =>
    intro r h
    by_cases he : e = .init
    · subst he; cases hn; cases h
    rw [epoch_snoc, if_neg he, readys_snoc]
    have key : ∀ {r'}, p.req = some r' → p'.req = some r' ∨ p'.req = none → r ∈ readys (epoch log) ++ (Ev.request e).toList := by
      intro r' h1 h4
      rcases h4 with h4 | h4 <;> rw [h4] at h
      · cases h; exact List.mem_append_left _ (ih _ h1)
      · cases h
    cases hn with
    | init p hp => cases h
    | recv p bs => exact key h (.inl h)
    | interim => cases h
    | ready i r' _ => cases h; simp [Ev.request]
    | error code => cases h
    | head r' hd _ => exact key rfl (by split <;> simp [Phase.req])
    | body r' hd n bs _ _ _ _ _ => exact key rfl (by split <;> simp [Phase.req])
    | chunk r' hd n bs _ _ _ _ => exact key rfl (by simp [Phase.req])
    | lastChunk r' hd n _ _ => exact key rfl (by simp [Phase.req])
    | completed r' hd => exact key rfl (by unfold Phase.after; split <;> simp [Phase.req])
    | completedOpen r' hd n _ _ _ => exact key rfl (by unfold Phase.after; split <;> simp [Phase.req])
    | forced p u _ _ => cases h
    | drained => cases h
    | again _ => cases h

theorem sending_req {s : Conf} (hr : Reach Proper s) (he : s.inEnv = true) (hf : s.c.fault = none) (hst : s.c.st = .sendingHeaders) :
    s.c.req ∈ readys (epoch s.c.log) := by
  obtain ⟨ph, hruns, hne, hph⟩ := reach_phase hr he hf
  rcases hph with ⟨hset, -⟩ | ⟨-, e | ⟨e, -⟩⟩
  · obtain ⟨rfl, -⟩ := (settled_sendH hst).1 hset
    exact req_mem hruns _ rfl
  · rw [hst] at e; cases e
  · rw [hst] at e; cases e

/-- The text of a 404 response. -/
def notFoundText (text : Bytes → Bytes) (r : ReqView) : Bytes :=
  b!"The requested resource '" ++ text r.path ++ b!"' does not exist on this server"

/-- C52: `HttpHandler404` reports every request handled, and a connection it serves writes, for each request, exactly one 404
response whose text names the path.  `text` is Qt's conversion to UTF-8, which does not grow a string more than fourfold. -/
theorem C52_notFound (text : Bytes → Bytes) (ht : ∀ p, (text p).length ≤ 4 * p.length) :
    AlwaysAnswers 404 (notFoundText text) (notFoundHandle text) := by
  refine always_of (f := fun r => if r.path.length ≤ headLimit then ⟨404, [], notFoundText text r⟩ else ⟨404, [], []⟩) ?_
    (fun _ => rfl) (fun _ => ⟨_, _, _, rfl⟩) ?_ ?_
  · intro r
    dsimp only
    split
    · rename_i h
      refine ⟨rfl, ?_⟩
      have := ht r.path
      simp only [notFoundText, List.length_append]
      unfold headLimit at h
      simp; omega
    · exact ⟨rfl, by simp⟩
  · intro s hg he hf hst
    have := path_short (reach_mono (fun s l h => h.1) hg) _ (sending_req (reach_mono (fun s l h => h.1) hg) he hf hst)
    simp [this, notFoundHandle, notFoundText]
  · intro s hg r hr
    have := path_short (reach_mono (fun s l h => h.1) hg) r hr
    simp [this]

/-- C52: the answer is given at once: a handler that calls `writeResponse` without headers when it gets the request has completed
the response when control comes back to foreign code for the first time. -/
theorem C52_at_once (s : Conf) (hr : Reach Proper s) (he : s.inEnv = true) (hf : s.c.fault = none) (hst : s.c.st = .sendingHeaders)
    (status : Int) (content : Bytes) (hl : content.length < 2147483648) :
    ∃ (n : Nat) (s' : Conf) (h : RespHead), s.run ((fixedHandle status content s.c.req).calls.map .call ++ taus n) = some s' ∧ s'.inEnv = true ∧
      HeadSpec s.c.req content.length status [] h ∧
      s'.c.log = s.c.log ++ [.head h] ++ (if content = [] ∨ s.c.req.method = b!"HEAD" then [] else [.body content]) ++ [.completed] := by
  obtain ⟨n, s', h, h1, h2, -, h3, h4⟩ := C18_writeResponse s hr he hf hst status [] content rfl (by omega)
  exact ⟨n, s', h, h1, h2, h3, h4⟩

instance (h : ReqView → Reply) (s : Conf) (l : Label) : Decidable (ServedBy h s l) :=
  match l with
  | .call a => decidable_of_iff (Gentle s (.call a) ∧ (Writes a → a ∈ (h s.c.req).calls))
      ⟨fun k => ⟨k.1, fun a' e => by cases e; exact k.2⟩, fun k => ⟨k.1, k.2 a rfl⟩⟩
  | .tau _ | .ret | .recv _ | .bytesWritten _ | .init | .readParams | .setParam _ _ | .readDecoded _ =>
    decidable_of_iff (Gentle s _) ⟨fun h => ⟨h, fun a e => by cases e⟩, fun h => h.1⟩

/-- Two pipelined requests answered by the 404 handler. -/
example : ∃ s, Reach (ServedBy (notFoundHandle id)) s ∧ Waiting s ∧ (readys (epoch s.c.log)).map (·.path) = [b!"/a", b!"/b"] := by
  obtain ⟨t, h1, h2⟩ := exists_of_endsIn (allowed := ServedBy (notFoundHandle id))
    (ls := [.init, .recv b!"GET /a HTTP/1.1\r\n\r\nGET /b HTTP/1.1\r\n\r\n", .call .processInput] ++ taus 3 ++
      [.call (.writeResponse 404 [] b!"The requested resource '/a' does not exist on this server")] ++ taus 7 ++ [.ret] ++ taus 2 ++ [.ret] ++ taus 4 ++
      [.call (.writeResponse 404 [] b!"The requested resource '/b' does not exist on this server")] ++ taus 7 ++ [.ret] ++ taus 1 ++ [.tau 1000, .ret] ++ taus 2 ++ [.ret, .ret])
    (p := fun s => s.stack == [] && s.c.fault == none && unread s.c == [] && s.c.st == .receivingHeaders &&
      (readys (epoch s.c.log)).map (·.path) == [b!"/a", b!"/b"]) (by decide +kernel)
  simp only [Bool.and_eq_true, beq_iff_eq] at h2
  obtain ⟨⟨⟨⟨a, b⟩, c⟩, d⟩, e⟩ := h2
  exact ⟨t, h1, ⟨a, b, c, .inl d⟩, e⟩

/-! ### C48 -/

theorem seen_snoc (evs : List LogEv) (e : LogEv) (i : Nat) :
    Seen (evs ++ [e]) i ↔ (∃ l, e = .handle i l) ∨ (e ≠ .destroyed i ∧ Seen evs i) := by
  constructor
  · rintro ⟨a, l, b, h1, h2⟩
    rcases List.eq_nil_or_concat b with rfl | ⟨b', x, rfl⟩
    · have h1' : evs ++ [e] = a ++ [LogEv.handle i l] := by simpa using h1
      obtain ⟨-, h3⟩ := List.append_inj' h1' rfl
      left; exact ⟨l, by simpa using h3⟩
    · have h1' : evs ++ [e] = (a ++ LogEv.handle i l :: b') ++ [x] := by simpa using h1
      obtain ⟨h3, h4⟩ := List.append_inj' h1' rfl
      simp at h4; subst h4
      simp at h2
      right; exact ⟨fun k => h2.2 k.symm, a, l, b', h3, h2.1⟩
  · rintro (⟨l, rfl⟩ | ⟨h1, a, l, b, rfl, h2⟩)
    · exact ⟨evs, l, [], rfl, by simp⟩
    · exact ⟨a, l, b ++ [e], by simp, by simp [h2]; exact fun k => h1 k.symm⟩

theorem modeAfter_snoc (m : LogMode) (evs : List LogEv) (e : LogEv) :
    modeAfter m (evs ++ [e]) = match e with | .setMode m' => m' | _ => modeAfter m evs := by
  simp only [modeAfter, List.foldl_append, List.foldl_cons, List.foldl_nil]; cases e <;> rfl

theorem log_inv (m : LogMode) (evs : List LogEv) :
    (∀ i, i ∈ (evs.foldl LogState.step { mode := m }).known ↔ Seen evs i) ∧
    (evs.foldl LogState.step { mode := m }).mode = modeAfter m evs ∧
    LogOf m evs (evs.foldl LogState.step { mode := m }).out := by
  induction evs using list_snoc_ind with
  | h0 => exact ⟨by simp [Seen], rfl, .nil⟩
  | h1 evs e ih =>
    obtain ⟨ih1, ih2, ih3⟩ := ih
    rw [List.foldl_append]
    generalize evs.foldl LogState.step { mode := m } = s at *
    simp only [List.foldl_cons, List.foldl_nil]
    have hl := LogOf.snoc evs s.out e ih3
    rw [modeAfter_snoc]
    simp only [seen_snoc]
    cases e with
    | handle i l =>
      have hk : ∀ j, j ∈ (if i ∈ s.known then s else { s with known := i :: s.known }).known ↔ i = j ∨ Seen evs j := by
        intro j
        split
        · rename_i hi
          rw [ih1]
          constructor
          · exact .inr
          · rintro (rfl | h)
            · exact (ih1 _).1 hi
            · exact h
        · simp [ih1]; constructor <;> (rintro (h | h) <;> simp [h])
      have hm : (if i ∈ s.known then s else { s with known := i :: s.known }).mode = s.mode := by split <;> rfl
      have ho : (if i ∈ s.known then s else { s with known := i :: s.known }).out = s.out := by split <;> rfl
      have hstep : s.step (.handle i l) = (match (if i ∈ s.known then s else { s with known := i :: s.known }).mode with
          | .completedRequests => (if i ∈ s.known then s else { s with known := i :: s.known })
          | .traceRequests => { (if i ∈ s.known then s else { s with known := i :: s.known }) with out := (if i ∈ s.known then s else { s with known := i :: s.known }).out ++ [(.begin, i, { l with outcome := none })] }) := rfl
      rw [hstep]
      generalize (if i ∈ s.known then s else { s with known := i :: s.known }) = s1 at *
      simp only [linesFor, ← ih2] at hl
      rw [← ho] at hl
      cases hmode : s1.mode with
      | completedRequests =>
        rw [← hm, hmode] at hl
        refine ⟨fun j => ?_, by rw [← ih2]; exact hm, ?_⟩
        · rw [hk]; simp
        · simpa using hl
      | traceRequests =>
        rw [← hm, hmode] at hl
        refine ⟨fun j => ?_, by rw [← ih2]; exact hm, ?_⟩
        · show j ∈ s1.known ↔ _
          rw [hk]; simp
        · simpa using hl
    | completed i l =>
      simp only [LogState.step]
      simp only [linesFor, ← ih2, ← ih1] at hl
      split
      · rename_i hi
        refine ⟨by simpa using ih1, ih2, ?_⟩
        rw [if_pos hi] at hl
        cases hmode : s.mode <;> simp [hmode] at hl ⊢ <;> exact hl
      · rename_i hi
        refine ⟨by simpa using ih1, ih2, ?_⟩
        rw [if_neg hi] at hl
        simpa using hl
    | closed i l =>
      simp only [LogState.step]
      simp only [linesFor, ← ih2, ← ih1] at hl
      split
      · rename_i hi
        rw [if_pos hi] at hl
        exact ⟨by simpa using ih1, ih2, hl⟩
      · rename_i hi
        rw [if_neg hi] at hl
        exact ⟨by simpa using ih1, ih2, by simpa using hl⟩
    | destroyed i =>
      simp only [LogState.step]
      refine ⟨fun j => ?_, ih2, by simpa [linesFor] using hl⟩
      simp [ih1]
      constructor
      · rintro ⟨h1, h2⟩; exact ⟨fun h => h2 h.symm, h1⟩
      · rintro ⟨h1, h2⟩; exact ⟨h2, fun h => h1 h.symm⟩
    | setMode m' =>
      simp only [LogState.step]
      exact ⟨by simpa using ih1, trivial, by simpa [linesFor] using hl⟩

/-- C48: what is written to the log is, event by event, what it must be: a line per `requestCompleted` of a connection that was
handed to the handler (and not destroyed since), in trace mode also one per request and one per `closed`; nothing else.  For every
interleaving of connections, requests and mode changes. -/
theorem C48_lines (m : LogMode) (evs : List LogEv) : LogOf m evs (evs.foldl LogState.step { mode := m }).out := (log_inv m evs).2.2

/-- C48, counted: in the default mode, the number of lines for a connection is the number of its `requestCompleted` since it was
first handed to the handler. -/
theorem C48_count (i : Nat) (pre : List LogEv) (l : LogLine) (evs : List LogEv) (hpre : ∀ l, LogEv.handle i l ∉ pre)
    (hm : ∀ m, LogEv.setMode m ∉ pre ++ evs) (hd : LogEv.destroyed i ∉ evs) :
    ((pre ++ LogEv.handle i l :: evs).foldl LogState.step {}).out.countP (fun x => x.2.1 == i) = evs.countP (completedOf i) := by
  have hmode : ∀ evs : List LogEv, (∀ m, LogEv.setMode m ∉ evs) → modeAfter .completedRequests evs = .completedRequests := by
    intro evs
    induction evs using list_snoc_ind with
    | h0 => intro _; rfl
    | h1 evs e ih =>
      intro h
      rw [modeAfter_snoc]
      cases e with
      | setMode m => exact absurd (by simp) (h m)
      | _ => exact ih fun m hm => h m (by simp [hm])
  have hsp : ∀ (p : List LogEv), (∀ l, LogEv.handle i l ∉ p) → ¬ Seen p i := by
    rintro p hp ⟨a, l, b, rfl, -⟩; exact hp l (by simp)
  -- before the first request
  have h0 : ∀ (p : List LogEv) out, (∀ l, LogEv.handle i l ∉ p) → (∀ m, LogEv.setMode m ∉ p) → LogOf .completedRequests p out →
      out.countP (fun x => x.2.1 == i) = 0 := by
    intro p out hp hm ho
    induction ho with
    | nil => rfl
    | snoc p out e ho ih =>
      rw [List.countP_append, ih (fun l h => hp l (by simp [h])) (fun m h => hm m (by simp [h]))]
      have hmo := hmode p (fun m h => hm m (by simp [h]))
      have hse := hsp p (fun l h => hp l (by simp [h]))
      cases e with
      | completed j l' =>
        simp only [linesFor, hmo]
        split
        · rename_i hs
          have : j ≠ i := by rintro rfl; exact hse hs
          simp [this]
        · rfl
      | _ => simp [linesFor, hmo]
  have hout := C48_lines .completedRequests (pre ++ LogEv.handle i l :: evs)
  show (List.foldl LogState.step { mode := .completedRequests } (pre ++ LogEv.handle i l :: evs)).out.countP _ = _
  generalize (List.foldl LogState.step { mode := .completedRequests } (pre ++ LogEv.handle i l :: evs)).out = out at hout
  revert hm hd
  induction evs using list_snoc_ind generalizing out with
  | h0 =>
    intro hm hd
    have : pre ++ [LogEv.handle i l] = pre ++ [LogEv.handle i l] := rfl
    generalize he : pre ++ [LogEv.handle i l] = full at hout
    cases hout with
    | nil => simp at he
    | snoc p o e ho =>
      obtain ⟨rfl, h2⟩ := List.append_inj' he rfl
      simp at h2; subst h2
      rw [List.countP_append, h0 _ _ hpre (fun m h => hm m (by simp [h])) ho]
      have hmo := hmode pre (fun m h => hm m (by simp [h]))
      simp [linesFor, hmo]
  | h1 evs e ih =>
    intro hm hd
    generalize he : pre ++ LogEv.handle i l :: (evs ++ [e]) = full at hout
    cases hout with
    | nil => simp at he
    | snoc p o e' ho =>
      have he' : (pre ++ LogEv.handle i l :: evs) ++ [e] = p ++ [e'] := by simpa using he
      obtain ⟨rfl, h2⟩ := List.append_inj' he' rfl
      simp at h2; subst h2
      rw [List.countP_append, List.countP_append, ih o ho (fun m h => hm m (by simp at h ⊢; rcases h with h | h <;> simp [h]))
        (fun h => hd (by simp [h]))]
      congr 1
      have hmo : modeAfter .completedRequests (pre ++ LogEv.handle i l :: evs) = .completedRequests :=
        hmode _ fun m h => hm m (by simp at h ⊢; rcases h with h | h <;> simp [h])
      have hse : Seen (pre ++ LogEv.handle i l :: evs) i := ⟨pre, l, evs, rfl, fun h => hd (by simp [h])⟩
      cases e with
      | completed j l' =>
        simp only [linesFor, hmo, completedOf]
        by_cases hj : j = i
        · subst hj; rw [if_pos hse]; simp [completedOf]
        · have hj' : i ≠ j := fun h => hj h.symm
          split <;> simp [completedOf, hj, hj']
      | _ => simp [linesFor, hmo, completedOf]

/-- Two connections, interleaved. -/
example : ([LogEv.handle 1 ⟨[], [], [], none⟩, .handle 2 ⟨[], [], [], none⟩, .completed 2 ⟨b!"GET", [], [], none⟩, .completed 1 ⟨b!"PUT", [], [], none⟩,
    .completed 3 ⟨[], [], [], none⟩].foldl LogState.step {}).out =
    [(.plain, 2, ⟨b!"GET", [], [], none⟩), (.plain, 1, ⟨b!"PUT", [], [], none⟩)] := rfl

end Pillow.Props
