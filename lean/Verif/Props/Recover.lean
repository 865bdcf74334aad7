import Verif.Props.Cut
/-!
# C71: requests after one that failed
-/
namespace Pillow.Props
open Pillow Spec

/-- **C71**: a request that fails is reported at once, with an error, and with what is known about the response. -/
theorem C71_failure_told (env : ClientEnv) (fuel : Nat) (c : Client) (hp : c.responsePending = true) (i : CInput) (hi : Failure i) :
    ∃ e, (e = .close ∨ e = .abort) ∧ c.log ++ [e, .finished (errorOf i) c.p.status c.d.headers c.d.content] <+: (c.step env fuel i).log := by
  cases i with
  | error rc =>
    refine ⟨.close, Or.inl rfl, ?_⟩
    have := error_shows (env := env) (fuel := fuel) hp rc
    cases rc <;> exact this
  | call u =>
    have hu : u = .abort := hi
    subst hu
    refine ⟨.abort, Or.inr rfl, ?_⟩
    show _ <+: (c.abort (Client.emit env fuel)).log
    unfold Client.abort
    dsimp only
    have hp' : ({ (c.add .abort) with sock := c.sock.abort } : Client).responsePending = true := hp
    rw [if_pos hp']
    have hst : c.p.pause.status = c.p.status := by
      unfold HParser.pause
      repeat' split
      all_goals rfl
    refine List.IsPrefix.trans ?_ (emit_log env fuel _ _)
    rw [← hst, show c.log ++ [.abort, .finished (errorOf (.call .abort)) c.p.pause.status c.d.headers c.d.content] =
      (c.log ++ [.abort]) ++ [.finished .aborted c.p.pause.status c.d.headers c.d.content] by simp [errorOf]]
    exact List.prefix_refl _
  | _ => exact hi.elim

/-- **C71** (the failures outside of the headers and outside of compressed content): the response to a later request is reported like any other. -/
theorem C71_next_partial (env : ClientEnv) (fuel : Nat) (c : Client) (hs : WellServed env fuel c) (hw : Expecting c) (h : RHead) (body : Bytes) (inputs : List CInput)
    (ha : Begins c.request h body inputs) (hz : ¬ Gzipped h.shown ∨ env.inflate = none)
    (ho : OutsideHeaders h ((incoming inputs).length - (c.run env fuel inputs).sock.rx.length)) (i : CInput) (hi : Failure i)
    (later : List CInput) (hl : ∀ bs, .arrive bs ∉ later) (c' : Client) (hc : c' = c.run env fuel (inputs ++ i :: later)) (hw' : Awaiting c')
    (interims : List Response) (m : Response) (segs : List Bytes) (inputs' : List CInput) (hr : Replied c'.request interims m segs inputs') :
    Reports env (IsHead c'.request) c'.log (c'.run env fuel inputs').log m := by
  have h1 : WellServed env fuel c' := by
    rw [hc, show inputs ++ i :: later = (inputs ++ [i]) ++ later by simp]
    have e : c.run env fuel ((inputs ++ [i]) ++ later) = (c.run env fuel (inputs ++ [i])).run env fuel later := List.foldl_append ..
    rw [e]
    exact wellServed_run env fuel later (.failed i hs hw ha hz ho hi) hl
  obtain ⟨k1, k2⟩ := served_fresh h1
  exact (answer_reports k1 k2 hw' hr).1

/-- **C71**: and so on, for any number of requests: a client that has failed like this is as good as one that has not. -/
theorem C71_again (env : ClientEnv) (fuel : Nat) (c : Client) (hs : WellServed env fuel c) (hw : Expecting c) (h : RHead) (body : Bytes) (inputs : List CInput)
    (ha : Begins c.request h body inputs) (hz : ¬ Gzipped h.shown ∨ env.inflate = none)
    (ho : OutsideHeaders h ((incoming inputs).length - (c.run env fuel inputs).sock.rx.length)) (i : CInput) (hi : Failure i) :
    WellServed env fuel (c.run env fuel (inputs ++ [i])) := .failed i hs hw ha hz ho hi

/-- **C71** (the failures outside of the headers and outside of compressed content): also if the request was HEAD, and if there was a `100 Continue` before the
answer that did not arrive, or did not arrive completely. -/
theorem C71_answer_partial (env : ClientEnv) (fuel : Nat) (c : Client) (hs : WellServed env fuel c) (hw : Expecting c) (before : List Response) (m₀ : Response) (inputs : List CInput)
    (ha : Begun c.request before m₀ inputs) (n : Nat) (hn : n = (incoming inputs).length - (c.run env fuel inputs).sock.rx.length) (ho : Outside before m₀.head n)
    (hz : Uncompressed env c.request before m₀.head n) (i : CInput) (hi : Failure i)
    (later : List CInput) (hl : ∀ bs, .arrive bs ∉ later) (c' : Client) (hc : c' = c.run env fuel (inputs ++ i :: later)) :
    WellServed env fuel c' ∧
    (∀ (interims : List Response) (m : Response) (segs : List Bytes) (inputs' : List CInput), Awaiting c' → Replied c'.request interims m segs inputs' →
      Reports env (IsHead c'.request) c'.log (c'.run env fuel inputs').log m) ∧
    (∀ (interims : List Response) (m : Response) (inputs' : List CInput), Expecting c' → Paced c'.request interims m inputs' → (c'.run env fuel inputs').sock.rx = [] →
      Reports env (IsHead c'.request) c'.log (c'.run env fuel inputs').log m) := by
  have h1 : WellServed env fuel c' := by
    rw [hc, show inputs ++ i :: later = (inputs ++ [i]) ++ later by simp]
    have e : c.run env fuel ((inputs ++ [i]) ++ later) = (c.run env fuel (inputs ++ [i])).run env fuel later := List.foldl_append ..
    rw [e]
    exact wellServed_run env fuel later (.broken i hs hw ha hn ho hz hi) hl
  obtain ⟨k1, k2⟩ := served_fresh h1
  refine ⟨h1, fun interims m segs inputs' hw' hr => (answer_reports k1 k2 hw' hr).1, fun interims m inputs' hw' hr hrx => ?_⟩
  rcases paced_reports (fuel := fuel) k1 k2 hw' hr with h | h
  · exact h.1
  · exact absurd hrx h.2

/-! ## Examples -/

/-- The connection breaks after a `100 Continue` and a part of the next status line. -/
def demoPromised : List CInput := [.arrive (demoContinue.render ++ b!"HTTP/1.1 2"), .readyRead]

theorem demoPromised_begun : Begun demoTaking.request [demoContinue] demoSized demoPromised where
  continues := by simp only [List.mem_singleton]; rintro i rfl; exact demoContinue_interim
  few := Nat.le_refl _
  answers := answers_get (by unfold IsHead; decide +kernel) demoSized_wf
  final := by decide +kernel
  steady := by simp [demoPromised, Steady]
  begins := ⟨demoSized.render.drop 10, by decide +kernel⟩

example : WellServed demoEnv 2 (demoTaking.run demoEnv 2 (demoPromised ++ [.error true])) :=
  (C71_answer_partial demoEnv 2 demoTaking demoTaking_served demoTaking_expecting [demoContinue] demoSized demoPromised demoPromised_begun _ rfl (Or.inr (by unfold Outside OutsideHeaders; decide +kernel))
    (Or.inr (Or.inr (Or.inl rfl))) (.error true) trivial [] (by simp) _ rfl).1

example : (demoTaking.run demoEnv 2 (demoPromised ++ [.error true])).log.drop demoTaking.log.length = [.close, .finished .remoteHostClosed 2 [] []] := by decide +kernel

/-- The application aborts between two chunks; four bytes that have arrived are still unread. -/
def demoCutOff : List CInput := [.call (.setReadBufferSize 5), .arrive (demoChunked.head.render ++ b!"3;x=y\r\nabc\r\n0A\r\n0123")] ++ List.replicate 12 .readyRead

/-- The same request again. -/
def demoLater : List CInput := [.call (.setReadBufferSize 0), .call (.request (demoReq b!"GET")), .connected]

theorem demoCutOff_begins : Begins demoTaking.request demoChunked.head b!"3;x=y\r\nabc\r\n0A\r\n0123" demoCutOff where
  get := by unfold IsHead; decide +kernel
  wf := demoChunked_wf.head
  final := by decide +kernel
  more := Or.inr ⟨_, _, b!"456789\r\n0\r\n\r\n", demoChunked_wf.body, by decide +kernel, by simp⟩
  steady := by
    intro i hi
    rcases List.mem_append.1 hi with h | h
    · simp only [List.mem_cons, List.not_mem_nil, or_false] at h
      rcases h with rfl | rfl <;> simp [Steady]
    · rw [List.eq_of_mem_replicate h]; trivial
  whole := ⟨[], by decide +kernel⟩


def demoAgain : Client := demoTaking.run demoEnv 2 (demoCutOff ++ .call .abort :: demoLater)

theorem demoAgain_awaiting : Awaiting demoAgain where
  pending := by decide +kernel
  connected := by decide +kernel
  unlimited := by decide +kernel
  onHeaders := by
    have : demoAgain.onHeaders = [] := by decide +kernel
    rw [this]; intro l hl; cases hl
  onContent := by
    have : demoAgain.onContent = List.replicate 8 [.consumeContent] := by decide +kernel
    rw [this]
    intro l hl u hu
    rw [List.eq_of_mem_replicate hl] at hu
    rw [List.mem_singleton.1 hu]
    trivial

example : Reports demoEnv (IsHead demoAgain.request) demoAgain.log (demoAgain.run demoEnv 2 demoPiecesRun).log demoSized :=
  C71_next_partial demoEnv 2 demoTaking demoTaking_served demoTaking_expecting _ _ demoCutOff demoCutOff_begins (Or.inr rfl) (Or.inr (by decide +kernel)) (.call .abort) rfl demoLater (by simp [demoLater]) demoAgain rfl
    demoAgain_awaiting [demoContinue] demoSized demoPieces demoPiecesRun
    ⟨by simp only [List.mem_singleton]; rintro i rfl; exact demoContinue_interim, answers_get (by unfold IsHead; decide +kernel) demoSized_wf, by decide +kernel, demoPieces_arrive, by decide +kernel, by
      intro before m₁ m₂ after e
      have := congrArg List.length e
      simp at this
      omega⟩

/-- What this run looks like. -/
example : (demoTaking.run demoEnv 2 demoCutOff).sock.rx = b!"0123" ∧ (demoTaking.run demoEnv 2 (demoCutOff ++ [.call .abort])).log.drop demoTaking.log.length =
    [.headersCompleted 200 demoChunked.head.shown, .contentReadyRead b!"abc", .consumed b!"abc", .abort, .finished .aborted 200 demoChunked.head.shown []] := by
  decide +kernel

/-! ## The others -/

/-- **C71** is violated if the request fails while the headers arrive: the name that was begun is put before the first name of the next response. -/
theorem C71_header_violation : ∃ (c : Client) (inputs later : List CInput) (c' : Client), WellServed demoEnv 2 c ∧ Expecting c ∧ Begins c.request demoSized.head [] inputs ∧ (∀ bs, .arrive bs ∉ later) ∧
    c' = c.run demoEnv 2 (inputs ++ .error true :: later) ∧ Awaiting c' ∧ Replied c'.request [] demoSized [demoSized.render] [.arrive demoSized.render, .readyRead] ∧
    demoSized.head.shown = [⟨b!"Content-Length", b!"5"⟩, ⟨b!"X-A", b!"b c"⟩] ∧
    .finished .noError 200 [⟨b!"Content-Content-Length", b!"5"⟩, ⟨b!"X-A", b!"b c"⟩] [] ∈ (c'.run demoEnv 2 [.arrive demoSized.render, .readyRead]).log := by
  refine ⟨demoTaking, [.arrive (demoSized.render.take 25), .readyRead], demoLater, _, demoTaking_served, demoTaking_expecting, ⟨by unfold IsHead; decide +kernel, demoSized_wf.head, by decide +kernel,
    Or.inr ⟨_, _, b!"hello", demoSized_wf.body, rfl, by simp⟩, by simp [Steady], ⟨demoSized.head.render.drop 25, by decide +kernel⟩⟩, by simp [demoLater], rfl, ⟨by decide +kernel, by decide +kernel, by decide +kernel, ?_, ?_⟩,
    ⟨by simp, answers_get (by unfold IsHead; decide +kernel) demoSized_wf, by decide +kernel, .segment _ .nil, by simp, fun before m₁ m₂ after e => by have := congrArg List.length e; simp at this⟩, by decide +kernel, by decide +kernel⟩
  · have : (demoTaking.run demoEnv 2 ([.arrive (demoSized.render.take 25), .readyRead] ++ .error true :: demoLater)).onHeaders = [] := by decide +kernel
    rw [this]; intro l hl; cases hl
  · have : (demoTaking.run demoEnv 2 ([.arrive (demoSized.render.take 25), .readyRead] ++ .error true :: demoLater)).onContent = List.replicate 9 [.consumeContent] := by decide +kernel
    rw [this]
    intro l hl u hu
    rw [List.eq_of_mem_replicate hl] at hu
    rw [List.mem_singleton.1 hu]
    trivial

/-- **C71** is violated if the request fails while compressed content arrives: the next response is decompressed, too, although it is not compressed. -/
theorem C71_gzip_violation : ∃ (c : Client) (inputs later : List CInput) (c' : Client), WellServed demoZip 2 c ∧ Expecting c ∧ Begins c.request demoGzip.head b!"ab" inputs ∧ (∀ bs, .arrive bs ∉ later) ∧
    OutsideHeaders demoGzip.head ((incoming inputs).length - (c.run demoZip 2 inputs).sock.rx.length) ∧
    c' = c.run demoZip 2 (inputs ++ .error true :: later) ∧ Awaiting c' ∧ Replied c'.request [] demoSized [demoSized.render] [.arrive demoSized.render, .readyRead] ∧
    demoSized.content = b!"hello" ∧ ¬ Gzipped demoSized.head.shown ∧
    .finished .noError 200 demoSized.head.shown b!"x" ∈ (c'.run demoZip 2 [.arrive demoSized.render, .readyRead]).log := by
  refine ⟨demoWaiting, [.arrive (demoGzip.head.render ++ b!"ab"), .readyRead], demoLater, _, wellServed_run demoZip 2 _ (.new ..) (by simp), ⟨demoWaiting_awaiting.pending, demoWaiting_awaiting.connected, ?_, ?_⟩, ⟨by unfold IsHead; decide +kernel, demoGzip_wf.head, by decide +kernel,
    Or.inr ⟨_, _, b!"cd", demoGzip_wf.body, rfl, by simp⟩, by simp [Steady], ⟨[], by decide +kernel⟩⟩, by simp [demoLater], Or.inr (by decide +kernel), rfl, ⟨by decide +kernel, by decide +kernel, by decide +kernel, ?_, ?_⟩,
    ⟨by simp, answers_get (by unfold IsHead; decide +kernel) demoSized_wf, by decide +kernel, .segment _ .nil, by simp, fun before m₁ m₂ after e => by have := congrArg List.length e; simp at this⟩, rfl, ?_, by decide +kernel⟩
  · have : demoWaiting.onHeaders = [] := by decide +kernel
    rw [this]; intro l hl; cases hl
  · have : demoWaiting.onContent = [] := by decide +kernel
    rw [this]; intro l hl; cases hl
  · have : (demoWaiting.run demoZip 2 ([.arrive (demoGzip.head.render ++ b!"ab"), .readyRead] ++ .error true :: demoLater)).onHeaders = [] := by decide +kernel
    rw [this]; intro l hl; cases hl
  · have : (demoWaiting.run demoZip 2 ([.arrive (demoGzip.head.render ++ b!"ab"), .readyRead] ++ .error true :: demoLater)).onContent = [] := by decide +kernel
    rw [this]; intro l hl; cases hl
  · rw [← gzipped_iff]; decide +kernel

end Pillow.Props
