import Verif.Lemmas.ClientGone
import Verif.Props.Pace
/-!
# C62, C63: responses that end with the connection; responses that break off
-/
namespace Pillow.Props
open Pillow Pillow.Spec

/-! ## C62 -/

/-- **C62**: a response without a length arrives, in any pieces and read at any pace. The request stays pending, and once everything that has arrived has been read, the application has been told the
status and headers, once, and what it has taken of the content and what is left of it are all of it. -/
theorem C62_content (env : ClientEnv) (fuel : Nat) (c : Client) (hs : WellServed env fuel c) (hw : Expecting c) (h : RHead) (content : Bytes) (inputs : List CInput) (ha : Lasts c.request h content inputs) :
    let c' := c.run env fuel inputs
    c'.responsePending = true ∧ (c'.sock.rx = [] → ∃ l all, c'.log = c.log ++ l ∧ signals l = [.headersCompleted (num h.status) h.shown] ∧ taken l ++ c'.d.content = all ∧ Announced l all ∧
      Shown env False ⟨h, content, content⟩ all) := by
  intro c'
  obtain ⟨x, y, k1, k2⟩ := lasts_within (env := env) (fuel := fuel) (served_fresh hs).1 (served_fresh hs).2 hw ha
  refine ⟨?_, fun hrx => (k2 _ k1 hrx).log⟩
  obtain ⟨U, p, t, k, -⟩ := k1
  exact mid_pending k

/-- **C62**: and everything is read, however small the read buffer is, if the application takes the content that is there and returns to the event loop, again and again. -/
theorem C62_drained (env : ClientEnv) (fuel : Nat) (c : Client) (hs : WellServed env fuel c) (hw : Expecting c) (h : RHead) (content : Bytes) (inputs : List CInput) (ha : Lasts c.request h content inputs)
    (k : Nat) (hk : (c.run env fuel inputs).sock.rx.length ≤ k) : (c.run env fuel (inputs ++ takings k)).sock.rx = [] := by
  obtain ⟨x, y, k1, k2⟩ := lasts_within (env := env) (fuel := fuel) (served_fresh hs).1 (served_fresh hs).2 hw ha
  have e : c.run env fuel (inputs ++ takings k) = (c.run env fuel inputs).run env fuel (takings k) := List.foldl_append ..
  rw [e]
  exact (within_rounds k k1 hk).2

/-- **C62**: when the connection is closed then, the request is finished, with all the content, but always with an error: the client cannot tell that the response is complete. Nothing of it disturbs the
responses to come, unless it was compressed (see `C36_violation`). -/
theorem C62_closed (env : ClientEnv) (fuel : Nat) (c : Client) (hs : WellServed env fuel c) (hw : Expecting c) (h : RHead) (content : Bytes) (inputs : List CInput) (ha : Lasts c.request h content inputs)
    (hrx : (c.run env fuel inputs).sock.rx = []) (remoteClosed : Bool) :
    let c' := c.run env fuel (inputs ++ [.error remoteClosed])
    (∃ l ct l' all, c'.log = c.log ++ l ++ .close :: .finished (if remoteClosed then .remoteHostClosed else .network) (num h.status) h.shown ct :: l' ∧
      signals l = [.headersCompleted (num h.status) h.shown] ∧ taken l ++ ct = all ∧ Announced l all ∧ Shown env False ⟨h, content, content⟩ all) ∧
    (¬ Gzipped h.shown ∨ env.inflate = none → WellServed env fuel c') := by
  intro c'
  obtain ⟨x, y, k1, k2⟩ := lasts_within (env := env) (fuel := fuel) (served_fresh hs).1 (served_fresh hs).2 hw ha
  have k := k2 _ k1 hrx
  refine ⟨?_, fun hz => .closed remoteClosed hs hw ha hz hrx⟩
  have e : c' = (c.run env fuel inputs).step env fuel (.error remoteClosed) := List.foldl_append ..
  obtain ⟨l, all, l1, l2, l3, l4, l5⟩ := k.log
  obtain ⟨l', hl'⟩ := error_shows (env := env) (fuel := fuel) k.pending remoteClosed
  rw [k.status, k.headers, l1, ← e] at hl'
  exact ⟨l, _, l', all, by rw [← hl']; simp, l2, l3, l4, l5⟩

/-! ## C63 -/

/-- **C63**: an answer that breaks off anywhere, in any pieces and read at any pace: the request stays pending; no response is reported, and of this one the application sees at most its status and headers and a
beginning of its content. -/
theorem C63_pending (env : ClientEnv) (fuel : Nat) (c : Client) (hs : WellServed env fuel c) (hw : Expecting c) (interims : List Response) (m : Response) (inputs : List CInput) (more : Bytes)
    (ha : BreaksOff c.request interims m inputs more) :
    let c' := c.run env fuel inputs
    c'.responsePending = true ∧ ∃ l all, c'.log = c.log ++ l ∧ Shown env (IsHead c.request) m all ∧ SeenSome m l c'.d.content all :=
  broken_mid (fuel := fuel) (env := env) (served_fresh hs).1 (served_fresh hs).2 hw ha

/-- **C63**: when the connection breaks then, the request is finished with an error, with a beginning of the content, and with the status and headers of the response if the application had been shown them. -/
theorem C63_error (env : ClientEnv) (fuel : Nat) (c : Client) (hs : WellServed env fuel c) (hw : Expecting c) (interims : List Response) (m : Response) (inputs : List CInput) (more : Bytes)
    (ha : BreaksOff c.request interims m inputs more) (remoteClosed : Bool) :
    ∃ l st hs ct l' all, (c.run env fuel (inputs ++ [.error remoteClosed])).log = c.log ++ l ++ .close :: .finished (if remoteClosed then .remoteHostClosed else .network) st hs ct :: l' ∧
      Shown env (IsHead c.request) m all ∧ SeenSome m l ct all ∧ ((∃ x y, .headersCompleted x y ∈ l) → st = num m.head.status ∧ hs = m.head.shown) := by
  obtain ⟨h1, l, all, h2, h3, h4⟩ := C63_pending env fuel c hs hw interims m inputs more ha
  obtain ⟨l', hl'⟩ := error_shows (env := env) (fuel := fuel) h1 remoteClosed
  have e : c.run env fuel (inputs ++ [.error remoteClosed]) = (c.run env fuel inputs).step env fuel (.error remoteClosed) := List.foldl_append ..
  rw [h2] at hl'
  refine ⟨l, (c.run env fuel inputs).p.status, (c.run env fuel inputs).d.headers, _, l', all, ?_, h3, h4, ?_⟩
  · rw [e, ← hl', List.append_assoc (c.log ++ l)]
    rfl
  · rintro ⟨x, y, hx⟩
    have hb : Begun c.request interims m inputs := ⟨ha.continues, ha.few, ha.answers, ha.final, ha.steady, ⟨more, ha.begins⟩⟩
    obtain ⟨-, -, -, k1, k2⟩ := shown_clean (fuel := fuel) (served_fresh hs).1 (served_fresh hs).2 hw hb h1 h2 hx (by
      intro x st hs ct hm
      have := h4.signals.subset (signals_mem hm)
      simp at this)
    exact ⟨k2, k1⟩

/-- What a finished request and a beginning of its content are worth: a response that is finished with no error is complete (C39, C56, C59), and one that breaks off is never finished with no error before
the connection breaks. -/
theorem C63_not_finished (env : ClientEnv) (fuel : Nat) (c : Client) (hs : WellServed env fuel c) (hw : Expecting c) (interims : List Response) (m : Response) (inputs : List CInput) (more : Bytes)
    (ha : BreaksOff c.request interims m inputs more) : ∃ l, (c.run env fuel inputs).log = c.log ++ l ∧ ∀ x st hs ct, .finished x st hs ct ∉ l := by
  obtain ⟨-, l, all, h2, -, h4⟩ := C63_pending env fuel c hs hw interims m inputs more ha
  refine ⟨l, h2, fun x st hs ct hm => ?_⟩
  have := h4.signals.subset (signals_mem hm)
  simp at this

/-! ## Examples -/

theorem demoTaking_expecting : Expecting demoTaking where
  pending := by decide +kernel
  connected := by decide +kernel
  onHeaders := by
    have : demoTaking.onHeaders = [] := by decide +kernel
    rw [this]; intro l hl; cases hl
  onContent := by
    have : demoTaking.onContent = List.replicate 9 [.consumeContent] := by decide +kernel
    rw [this]
    intro l hl hu
    rw [List.eq_of_mem_replicate hl] at hu
    simp at hu

/-- A response without a length. -/
def demoLasts : List CInput := [.arrive (demoEof.render ++ b!"gon"), .readyRead, .arrive b!"e!", .readyRead]

theorem demoLasts_lasts : Lasts demoTaking.request demoEof b!"gone!" demoLasts where
  get := by unfold IsHead; decide +kernel
  wf := demoEof_wf.1
  ends := demoEof_wf.2
  final := by decide +kernel
  steady := by simp [demoLasts, Steady]
  whole := by decide +kernel

example : (demoTaking.run demoEnv 2 demoLasts).sock.rx = [] ∧ (demoTaking.run demoEnv 2 (demoLasts ++ [.error true])).log.drop demoTaking.log.length =
    [.headersCompleted 404 [], .contentReadyRead b!"gon", .consumed b!"gon", .contentReadyRead b!"e!", .consumed b!"e!", .close, .finished .remoteHostClosed 404 [] []] ∧
    WellServed demoEnv 2 (demoTaking.run demoEnv 2 (demoLasts ++ [.error true])) :=
  ⟨by decide +kernel, by decide +kernel, (C62_closed demoEnv 2 demoTaking demoTaking_served demoTaking_expecting demoEof b!"gone!" demoLasts demoLasts_lasts (by decide +kernel) true).2 (Or.inr rfl)⟩

/-- **C62**: what has not been read when the connection is closed is lost. -/
theorem C62_unread_lost : ∃ (c : Client) (inputs : List CInput), WellServed demoEnv 2 c ∧ Expecting c ∧ Lasts c.request demoEof b!"gone!" inputs ∧
    (c.run demoEnv 2 (inputs ++ [.error true])).log.drop c.log.length = [.headersCompleted 404 [], .contentReadyRead b!"g", .contentReadyRead b!"gon", .close, .finished .remoteHostClosed 404 [] b!"gon"] :=
  ⟨demoSmall, [.arrive (demoEof.render ++ b!"gone!")] ++ List.replicate 30 .readyRead, demoSmall_served, demoSmall_expecting,
    ⟨by unfold IsHead; decide +kernel, demoEof_wf.1, demoEof_wf.2, by decide +kernel,
      (fun i hi => by
        rcases List.mem_append.1 hi with h | h
        · rw [List.mem_singleton.1 h]; trivial
        · rw [List.eq_of_mem_replicate h]; trivial), by decide +kernel⟩, by decide +kernel⟩

/-- A response that breaks off in its content. -/
def demoBreaks : List CInput := [.arrive demoContinue.render, .readyRead, .arrive (demoSized.render.take 49), .readyRead]

theorem demoBreaks_off : BreaksOff demoTaking.request [demoContinue] demoSized demoBreaks (demoSized.render.drop 49) where
  continues := by simp only [List.mem_singleton]; rintro i rfl; exact demoContinue_interim
  few := by simp
  answers := answers_get (by unfold IsHead; decide +kernel) demoSized_wf
  final := by decide +kernel
  steady := by simp [demoBreaks, Steady]
  begins := by decide +kernel
  missing := by decide +kernel

example : (demoTaking.run demoEnv 2 (demoBreaks ++ [.error false])).log.drop demoTaking.log.length =
    [.headersCompleted 200 demoSized.head.shown, .contentReadyRead b!"he", .consumed b!"he", .close, .finished .network 200 demoSized.head.shown []] := by
  decide +kernel

end Pillow.Props
