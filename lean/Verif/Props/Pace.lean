import Verif.Lemmas.ClientBounded
import Verif.Props.ClientReply
/-!
# C59, C60: reading at the pace of the application; HEAD
-/
namespace Pillow.Props
open Pillow Pillow.Spec

/-! ## C59 -/

/-- **C59**: the answer to a request arrives, in any pieces, and meanwhile the application sets the size of the read buffer, takes content and does anything else but abort, at any
time: the client reports exactly this response, as soon as it has read it; until then the request is pending and the rest of the response waits in the socket. -/
theorem C59_reports (env : ClientEnv) (fuel : Nat) (c : Client) (hs : WellServed env fuel c) (hw : Expecting c) (interims : List Response) (m : Response) (inputs : List CInput)
    (ha : Paced c.request interims m inputs) :
    let c' := c.run env fuel inputs
    Reports env (IsHead c.request) c.log c'.log m ∨ (c'.responsePending = true ∧ c'.sock.rx ≠ []) := by
  intro c'
  rcases paced_reports (fuel := fuel) (env := env) (served_fresh hs).1 (served_fresh hs).2 hw ha with h | h
  · exact Or.inl h.1
  · exact Or.inr h

/-- **C59**: and it does report it, however small the read buffer is, if the application takes the content that is there and returns to the event loop, again and again; no round
is in vain, so that as many are enough as there are bytes waiting. Then it is as good as before. -/
theorem C59_drained (env : ClientEnv) (fuel : Nat) (c : Client) (hs : WellServed env fuel c) (hw : Expecting c) (interims : List Response) (m : Response) (inputs : List CInput)
    (ha : Paced c.request interims m inputs) (k : Nat) (hk : (c.run env fuel inputs).sock.rx.length ≤ k) :
    let c' := c.run env fuel (inputs ++ takings k)
    Reports env (IsHead c.request) c.log c'.log m ∧ WellServed env fuel c' := by
  intro c'
  obtain ⟨hd, d1, d2, h⟩ := paced_along (fuel := fuel) (env := env) (served_fresh hs).1 (served_fresh hs).2 hw ha
  obtain ⟨h1, h2⟩ := along_rounds (fuel := fuel) d2 ha.final k h hk
  have e : c' = (c.run env fuel inputs).run env fuel (takings k) := List.foldl_append ..
  have hno : ∀ i ∈ takings k, i = .call .consumeContent ∨ i = .timeout := by
    intro i hi
    obtain ⟨l, hl, hi⟩ := List.mem_flatten.1 hi
    rw [List.eq_of_mem_replicate hl] at hi
    simpa using hi
  have hin : incoming (takings k) = [] := by
    unfold incoming
    rw [List.flatten_eq_nil_iff]
    intro x hx
    obtain ⟨i, hi, rfl⟩ := List.mem_map.1 hx
    rcases hno i hi with rfl | rfl <;> rfl
  refine ⟨?_, .paced hs hw (interims := interims) (m := m) ⟨ha.continues, ha.few, ha.answers, ha.final, ?_, ?_⟩ ?_⟩
  · rw [e, ← d1]; exact h1
  · intro i hi
    rcases List.mem_append.1 hi with hi | hi
    · exact ha.steady i hi
    · rcases hno i hi with rfl | rfl
      · simp [Steady]
      · trivial
  · rw [← ha.whole]
    unfold incoming at hin ⊢
    rw [List.map_append, List.flatten_append, hin, List.append_nil]
  · show c'.sock.rx = []
    rw [e]
    exact h2.rx

/-- **C59**: a limit holds. Once the read buffer has been given the size `n`, neither the client's content nor what it shows the application is ever longer, whatever is sent and whatever
the application does (except to set another size), as long as no response was compressed or the library was built without zlib: compressed content is limited before it is decoded
(`C59_compressed_violation`). -/
theorem C59_bounded (env : ClientEnv) (fuel : Nat) (onHeaders onContent onFinished : List (List UserCall)) (onConnect : List SockReply)
    (hs : ∀ calls ∈ onHeaders ++ onContent ++ onFinished, NoResize calls) (n : Nat) (hn : 0 < n) (inputs : List CInput) (hi : ∀ j, .call (.setReadBufferSize j) ∉ inputs) :
    let c := (Client.new onHeaders onContent onFinished onConnect).run env fuel (.call (.setReadBufferSize n) :: inputs)
    (env.inflate = none ∨ ∀ st hs, .headersCompleted st hs ∈ c.log → ¬ Gzipped hs) → c.d.content.length ≤ n ∧ ∀ e ∈ c.log, (content e).length ≤ n := by
  intro c hz
  have h0 : Room (env.inflate ≠ none) n [] 0 ((Client.new onHeaders onContent onFinished onConnect).step env fuel (.call (.setReadBufferSize n))) :=
    ⟨rfl, fun _ => Or.inl rfl, Or.inr ⟨Nat.zero_le _, (fun h => by cases h), ⟨[], rfl, by simp⟩⟩, fun x hx => hs x (by simp only [List.mem_append]; exact Or.inl (Or.inl hx)),
      fun x hx => hs x (by simp only [List.mem_append]; exact Or.inl (Or.inr hx)), fun x hx => hs x (by simp only [List.mem_append]; exact Or.inr hx)⟩
  have h1 := run_roomy (by by_cases h : env.inflate = none; exact Or.inl h; exact Or.inr h) fuel hn inputs ((new_top onHeaders onContent onFinished onConnect).step env fuel _) h0 hi
  have hno : ¬ Zip (env.inflate ≠ none) c.log := by
    rintro ⟨q, st, hs, hm, hg⟩
    rcases hz with e | e
    · exact q e
    · exact e st hs hm hg
  have f := h1.fits.resolve_left hno
  refine ⟨f.held, fun e he => ?_⟩
  obtain ⟨l, k1, k2⟩ := f.log
  refine k2 e ?_
  have k1 : c.log = l := k1
  rw [← k1]; exact he

/-! ## C60 -/

/-- **C60**: the response to a HEAD request, in any pieces: it ends with its headers, whatever length and encoding they announce; the application is told the status and headers,
no content, and that the request is finished without error; and the client is ready for the next one. -/
theorem C60_head (env : ClientEnv) (fuel : Nat) (c : Client) (hs : WellServed env fuel c) (hw : Awaiting c) (hh : IsHead c.request) (h : RHead) (hwf : h.Wf) (h100 : num h.status ≠ 100)
    (segs : List Bytes) (inputs : List CInput) (ha : Arrive segs inputs) (he : segs.flatten = h.render) :
    (∃ l₁ l₂, (c.run env fuel inputs).log = c.log ++ l₁ ++ .finished .noError (num h.status) h.shown [] :: l₂ ∧ signals l₁ = [.headersCompleted (num h.status) h.shown] ∧
      ∀ e ∈ l₁, content e = []) ∧ WellServed env fuel (c.run env fuel inputs) := by
  have hm : Answers c.request ⟨h, [], []⟩ := ⟨fun hn => absurd hh hn, fun _ => ⟨hwf, rfl, rfl⟩⟩
  have he' : segs.flatten = (⟨h, [], []⟩ : Response).render := by rw [he]; simp [Response.render]
  refine ⟨?_, C56_and_again env fuel c hs hw ⟨h, [], []⟩ hm h100 segs inputs ha he'⟩
  obtain ⟨l₁, ct, l₂, all, h1, h2, h3, h4, h5⟩ := C56_reports_the_response env fuel c hs hw ⟨h, [], []⟩ hm h100 segs inputs ha he'
  have hall : all = [] := h5.2 (Or.inr (Or.inr hh))
  subst hall
  obtain ⟨ht, rfl⟩ := List.append_eq_nil_iff.1 h3
  refine ⟨l₁, l₂, h1, h2, fun e he => ?_⟩
  cases e with
  | contentReadyRead ct =>
    obtain ⟨a, b, e⟩ := List.append_of_mem he
    have := h4.1 a ct b e
    exact (List.append_eq_nil_iff.1 (List.prefix_nil.1 this)).2
  | consumed ct =>
    unfold taken at ht
    rw [List.flatten_eq_nil_iff] at ht
    exact ht ct (List.mem_map.2 ⟨_, he, rfl⟩)
  | finished x st hs' ct =>
    have : CEv.finished x st hs' ct ∈ signals l₁ := List.mem_filter.2 ⟨he, rfl⟩
    rw [h2] at this
    simp at this
  | _ => rfl

/-! ## Examples -/

/-- A client with a read buffer of three bytes. -/
def demoSmall : Client := (Client.new [] [] [] []).run demoEnv 2 [.call (.setReadBufferSize 3), .call (.request (demoReq b!"GET")), .connected]

theorem demoSmall_served : WellServed demoEnv 2 demoSmall := wellServed_run demoEnv 2 _ (.new ..) (by simp)

theorem demoSmall_expecting : Expecting demoSmall where
  pending := by decide +kernel
  connected := by decide +kernel
  onHeaders := by
    have : demoSmall.onHeaders = [] := by decide +kernel
    rw [this]; intro l hl; cases hl
  onContent := by
    have : demoSmall.onContent = [] := by decide +kernel
    rw [this]; intro l hl; cases hl

/-- A chunked response in two pieces, read in some more. -/
def demoSmallRun : List CInput := [.arrive (demoChunked.render.take 47), .readyRead, .arrive (demoChunked.render.drop 47), .readyRead, .readyRead, .readyRead]

theorem demoSmall_paced : Paced demoSmall.request [] demoChunked demoSmallRun where
  continues := by simp
  few := by simp
  answers := answers_get (by unfold IsHead; decide +kernel) demoChunked_wf
  final := by decide +kernel
  steady := by simp [demoSmallRun, Steady]
  whole := by decide +kernel

/-- Most of it is still in the socket, and is reported in the end. -/
example : (demoSmall.run demoEnv 2 demoSmallRun).sock.rx.length = 65 ∧ (demoSmall.run demoEnv 2 demoSmallRun).responsePending = true ∧
    Reports demoEnv (IsHead demoSmall.request) demoSmall.log (demoSmall.run demoEnv 2 (demoSmallRun ++ takings 65)).log demoChunked :=
  ⟨by decide +kernel, by decide +kernel, (C59_drained demoEnv 2 demoSmall demoSmall_served demoSmall_expecting [] demoChunked demoSmallRun demoSmall_paced 65 (by decide +kernel)).1⟩

/-- In pieces of at most three bytes. -/
example : ((demoSmall.run demoEnv 2 (demoSmallRun ++ takings 40)).log.map content).filter (· ≠ []) =
    [b!"abc", b!"abc", b!"012", b!"012", b!"345", b!"345", b!"678", b!"678", b!"9", b!"9"] := by
  decide +kernel

/-- Content that is not taken keeps the rest of the response in the socket. -/
example : let c := demoSmall.run demoEnv 2 (.arrive demoSized.render :: List.replicate 50 .readyRead)
    c.d.content = b!"hel" ∧ c.sock.rx = b!"lo" ∧ c.responsePending = true := by
  decide +kernel

/-- With zlib, and a response that is not compressed, in a read buffer of three bytes. -/
example : let c := (Client.new [] [] [] []).run demoZip 2 (.call (.setReadBufferSize 3) :: [.call (.request (demoReq b!"GET")), .connected, .arrive demoSized.render] ++ List.replicate 50 .readyRead)
    c.d.content = b!"hel" ∧ demoZip.inflate ≠ none ∧ ∀ e ∈ c.log, (content e).length ≤ 3 := by
  refine ⟨by decide +kernel, by simp [demoZip], (C59_bounded demoZip 2 [] [] [] [] (by simp) 3 (by omega) _ ?_ ?_).2⟩
  · intro j; simp
  · refine Or.inr fun st hs hm hz => ?_
    have h : ∀ e ∈ ((Client.new [] [] [] []).run demoZip 2 (.call (.setReadBufferSize 3) :: [.call (.request (demoReq b!"GET")), .connected, .arrive demoSized.render] ++ List.replicate 50 .readyRead)).log,
        (match e with | .headersCompleted _ hs => !gzipped hs | _ => true) = true := by decide +kernel
    have := h _ hm
    simp [(gzipped_iff hs).2 hz] at this

/-- A client that has asked for the headers. -/
def demoAskHead : Client := (Client.new [] [] [] []).run demoZip 2 [.call (.request (demoReq b!"HEAD")), .connected]

theorem demoAskHead_awaiting : Awaiting demoAskHead where
  pending := by decide +kernel
  connected := by decide +kernel
  unlimited := by decide +kernel
  onHeaders := by
    have : demoAskHead.onHeaders = [] := by decide +kernel
    rw [this]; intro l hl; cases hl
  onContent := by
    have : demoAskHead.onContent = [] := by decide +kernel
    rw [this]; intro l hl; cases hl

/-- The headers announce four bytes of compressed content. -/
example : IsHead demoAskHead.request ∧ demoGzip.head.Wf ∧
    (demoAskHead.run demoZip 2 [.arrive (demoGzip.head.render.take 30), .readyRead, .arrive (demoGzip.head.render.drop 30), .readyRead]).log.drop demoAskHead.log.length =
      [.headersCompleted 200 demoGzip.head.shown, .finished .noError 200 demoGzip.head.shown []] ∧
    WellServed demoZip 2 (demoAskHead.run demoZip 2 [.arrive (demoGzip.head.render.take 30), .readyRead, .arrive (demoGzip.head.render.drop 30), .readyRead]) :=
  ⟨by unfold IsHead; decide +kernel, demoGzip_wf.head, by decide +kernel,
    (C60_head demoZip 2 demoAskHead (wellServed_run demoZip 2 _ (.new ..) (by simp)) demoAskHead_awaiting (by unfold IsHead; decide +kernel) demoGzip.head demoGzip_wf.head (by decide +kernel)
      [demoGzip.head.render.take 30, demoGzip.head.render.drop 30] _ (.segment _ (.segment _ .nil)) (by simp)).2⟩

end Pillow.Props
