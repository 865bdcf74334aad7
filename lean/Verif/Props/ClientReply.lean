import Verif.Lemmas.ClientOpen
import Verif.Props.Client
import Verif.Props.Reply
/-!
# C39, C56: what the client reports about the responses it receives
-/
namespace Pillow.Props
open Pillow Pillow.Spec

/-- **C56**: a client that has only ever been sent complete answers, and is waiting for one, is sent one well-formed response (headers only, if it has asked for no more): in whatever pieces it arrives, whatever
(calm) calls happen in between and in the application's slots, the client reports exactly this response. -/
theorem C56_reports_the_response (env : ClientEnv) (fuel : Nat) (c : Client) (hs : WellServed env fuel c) (hw : Awaiting c) (m : Response) (hm : Answers c.request m) (h100 : num m.head.status ≠ 100)
    (segs : List Bytes) (inputs : List CInput) (ha : Arrive segs inputs) (he : segs.flatten = m.render) :
    Reports env (IsHead c.request) c.log (c.run env fuel inputs).log m := by
  obtain ⟨h1, h2⟩ := served_fresh hs
  refine (answer_reports (interims := []) h1 h2 hw ⟨by simp, hm, h100, ha, by simp [he], ?_⟩).1
  intro before m₁ m₂ after e
  have := congrArg List.length e
  simp at this

/-- … and then it is as good as before. -/
theorem C56_and_again (env : ClientEnv) (fuel : Nat) (c : Client) (hs : WellServed env fuel c) (hw : Awaiting c) (m : Response) (hm : Answers c.request m) (h100 : num m.head.status ≠ 100)
    (segs : List Bytes) (inputs : List CInput) (ha : Arrive segs inputs) (he : segs.flatten = m.render) : WellServed env fuel (c.run env fuel inputs) := by
  refine .response hs hw (interims := []) ⟨by simp, hm, h100, ha, by simp [he], ?_⟩
  intro before m₁ m₂ after e
  have := congrArg List.length e
  simp at this

/-- **C56**: what a report means for the application that has taken no content: `finished()` shows the content of the response. -/
theorem C56_content (env : ClientEnv) (hd : Prop) (before log : List CEv) (m : Response) (h : Reports env hd before log m) (hz : ¬ Gzipped m.head.shown ∨ env.inflate = none ∨ hd) (hn : ∀ bs, .consumed bs ∉ log) :
    .finished .noError (num m.head.status) m.head.shown m.content ∈ log := by
  obtain ⟨l₁, ct, l₂, all, h1, -, h3, -, h5⟩ := h
  have ht : taken l₁ = [] := by
    unfold taken
    rw [List.flatten_eq_nil_iff]
    intro x hx
    obtain ⟨e, he, rfl⟩ := List.mem_map.1 hx
    cases e with
    | consumed bs => exact absurd (by rw [h1]; simp [he]) (hn bs)
    | _ => rfl
  rw [ht, List.nil_append, h5.2 hz] at h3
  rw [h1, h3]
  simp

/-- **C39** (partial: no segment holds the end of an interim response, a whole further one and more; the other case is `C39_violation`). Any number of
`100 Continue` responses before the final one: the client reports the final response, and only that one. -/
theorem C39_interims_invisible_partial (env : ClientEnv) (fuel : Nat) (c : Client) (hs : WellServed env fuel c) (hw : Awaiting c) (interims : List Response) (m : Response) (segs : List Bytes)
    (inputs : List CInput) (ha : Replied c.request interims m segs inputs) : Reports env (IsHead c.request) c.log (c.run env fuel inputs).log m :=
  (answer_reports (served_fresh hs).1 (served_fresh hs).2 hw ha).1

/-- **C39**: one interim response, in any segments. -/
theorem C39_one_interim (env : ClientEnv) (fuel : Nat) (c : Client) (hs : WellServed env fuel c) (hw : Awaiting c) (i m : Response) (hi : Interim i) (hm : Answers c.request m) (h100 : num m.head.status ≠ 100)
    (segs : List Bytes) (inputs : List CInput) (ha : Arrive segs inputs) (he : segs.flatten = i.render ++ m.render) : Reports env (IsHead c.request) c.log (c.run env fuel inputs).log m := by
  refine C39_interims_invisible_partial env fuel c hs hw [i] m segs inputs ⟨by simpa using hi, hm, h100, ha, by simp [he], ?_⟩
  intro before m₁ m₂ after e
  have := congrArg List.length e
  simp at this
  omega

theorem answers_get {r : ClientRequest} {m : Response} (hr : ¬ IsHead r) (hm : m.Wf) : Answers r m := ⟨fun _ => hm, fun h => absurd h hr⟩

/-! ## Examples -/

theorem wellServed_run (env : ClientEnv) (fuel : Nat) : ∀ (is : List CInput) {c : Client}, WellServed env fuel c → (∀ bs, .arrive bs ∉ is) → WellServed env fuel (c.run env fuel is)
  | [], _, h, _ => h
  | i :: is, _, h, hi => wellServed_run env fuel is (.other i (fun bs e => hi bs (by simp [e])) h) fun bs hb => hi bs (by simp [hb])

def demoContinue : Response where
  head := { major := b!"1", minor := b!"1", status := b!"100", reason := b!" Continue", headers := [] }
  wire := []
  content := []

theorem demoContinue_interim : Interim demoContinue where
  wf := { head := {
            major := ⟨1, by decide +kernel, by decide⟩
            minor := ⟨1, by decide +kernel, by decide⟩
            status := ⟨100, by decide +kernel, by decide⟩
            reason := Or.inr ⟨b!"Continue", rfl, text_dec _ (by decide +kernel)⟩
            headers := by intro x hx; cases hx
            lengths := by intro x hx; cases hx
            noUpgrade := by decide +kernel
            size := by decide +kernel }
          body := .none (by decide +kernel) (by decide +kernel) (Or.inl (by decide +kernel)) }
  status := by decide +kernel
  empty := rfl

/-- An application that takes the content whenever there is some. -/
def demoTaking : Client := (Client.new [] (List.replicate 9 [.consumeContent]) [] []).run demoEnv 2 [.call (.request (demoReq b!"GET")), .connected]

theorem demoTaking_served : WellServed demoEnv 2 demoTaking :=
  wellServed_run demoEnv 2 _ (.new ..) (by simp)

theorem demoTaking_awaiting : Awaiting demoTaking where
  pending := by decide +kernel
  connected := by decide +kernel
  unlimited := by decide +kernel
  onHeaders := by
    have : demoTaking.onHeaders = [] := by decide +kernel
    rw [this]; intro l hl; cases hl
  onContent := by
    have : demoTaking.onContent = List.replicate 9 [.consumeContent] := by decide +kernel
    rw [this]
    intro l hl u hu
    rw [List.eq_of_mem_replicate hl] at hu
    rw [List.mem_singleton.1 hu]
    trivial

/-- The response in three pieces, with an empty one and a call in between. -/
def demoPieces : List Bytes := [b!"HTTP/1.1 100 Con", b!"tinue\r\n\r\nHTTP/1.1 200 OK\r\nContent-Length: 5\r\nX-A:b c\r\n\r\nhe", [], b!"llo"]

def demoPiecesRun : List CInput :=
  [.arrive b!"HTTP/1.1 100 Con", .readyRead, .arrive b!"tinue\r\n\r\nHTTP/1.1 200 OK\r\nContent-Length: 5\r\nX-A:b c\r\n\r\nhe", .readyRead,
   .arrive [], .readyRead, .call .consumeContent, .arrive b!"llo", .readyRead, .tick 5]

theorem demoPieces_arrive : Arrive demoPieces demoPiecesRun :=
  .segment _ (.segment _ (.segment _ (.other _ trivial (.segment _ (.other _ trivial .nil)))))

example : Reports demoEnv (IsHead demoTaking.request) demoTaking.log (demoTaking.run demoEnv 2 demoPiecesRun).log demoSized :=
  C39_one_interim demoEnv 2 demoTaking demoTaking_served demoTaking_awaiting demoContinue demoSized demoContinue_interim (answers_get (by unfold IsHead; decide +kernel) demoSized_wf) (by decide +kernel) demoPieces demoPiecesRun demoPieces_arrive
    (by decide +kernel)

/-- What this run looks like. -/
example : (demoTaking.run demoEnv 2 demoPiecesRun).log.drop demoTaking.log.length =
    [.headersCompleted 200 demoSized.head.shown, .contentReadyRead b!"he", .consumed b!"he", .consumed [], .contentReadyRead b!"llo", .consumed b!"llo", .finished .noError 200 demoSized.head.shown []] := by
  decide +kernel

/-- Two interim responses, cut between them, and a chunked response. -/
example : Reports demoEnv (IsHead demoTaking.request) demoTaking.log
    (demoTaking.run demoEnv 2 [.arrive demoContinue.render, .readyRead, .arrive (demoContinue.render ++ demoChunked.render), .readyRead]).log demoChunked :=
  C39_interims_invisible_partial demoEnv 2 demoTaking demoTaking_served demoTaking_awaiting [demoContinue, demoContinue] demoChunked [demoContinue.render, demoContinue.render ++ demoChunked.render] _
    ⟨by intro i hi; simp only [List.mem_cons, List.not_mem_nil, or_false, or_self] at hi; rw [hi]; exact demoContinue_interim, answers_get (by unfold IsHead; decide +kernel) demoChunked_wf, by decide +kernel,
     .segment _ (.segment _ .nil), by simp, by
      intro before m₁ m₂ after e
      cases before with
      | nil => injection e with e1 e2; subst e1; exact ⟨[demoContinue.render], [demoContinue.render ++ demoChunked.render], rfl, by simp, by simp⟩
      | cons x before => have := congrArg List.length e; simp at this; omega⟩

/-- **C39 is false of the code**: two interim responses and the final one in a single segment: the final response is never reported, and the request stays
pending. -/
theorem C39_violation :
    let c := demoTaking.run demoEnv 2 [.arrive (demoContinue.render ++ demoContinue.render ++ demoSized.render), .readyRead]
    c.responsePending = true ∧ c.log = demoTaking.log ∧ c.sock.rx = [] := by
  decide +kernel

/-- A zlib that turns every block of data into one letter. -/
def demoZip : ClientEnv := ⟨some fun _ => b!"x", fun _ => {}⟩

def demoGzip : Response where
  head := { major := b!"1", minor := b!"1", status := b!"200", reason := b!"", headers := [⟨b!"content-encoding", b!" ", b!"GZIP"⟩, ⟨b!"Content-Length", b!"", b!"4"⟩] }
  wire := b!"abcd"
  content := b!"abcd"

theorem demoGzip_wf : demoGzip.Wf where
  head := {
    major := ⟨1, by decide +kernel, by decide⟩
    minor := ⟨1, by decide +kernel, by decide⟩
    status := ⟨200, by decide +kernel, by decide⟩
    reason := Or.inl rfl
    headers := by
      intro x hx
      simp only [demoGzip, List.mem_cons, List.not_mem_nil, or_false] at hx
      rcases hx with rfl | rfl
      · exact ⟨⟨by simp, by decide +kernel⟩, by decide, text_dec _ (by decide +kernel), by decide, by decide⟩
      · exact ⟨⟨by simp, by decide +kernel⟩, by decide, text_dec _ (by decide +kernel), by decide, by decide⟩
    lengths := by
      have : demoGzip.head.lengths = [b!"4"] := by decide +kernel
      rw [this]
      intro v hv
      simp only [List.mem_singleton] at hv
      exact ⟨4, by rw [hv]; decide +kernel, by decide⟩
    noUpgrade := by decide +kernel
    size := by decide +kernel }
  body := .sized _ (by decide +kernel) (by decide +kernel)

def demoWaiting : Client := (Client.new [] [] [] []).run demoZip 2 [.call (.request (demoReq b!"GET")), .connected]

theorem demoWaiting_awaiting : Awaiting demoWaiting where
  pending := by decide +kernel
  connected := by decide +kernel
  unlimited := by decide +kernel
  onHeaders := by
    have : demoWaiting.onHeaders = [] := by decide +kernel
    rw [this]; intro l hl; cases hl
  onContent := by
    have : demoWaiting.onContent = [] := by decide +kernel
    rw [this]; intro l hl; cases hl

/-- Compressed content that arrives in two pieces: the application is shown what zlib made of them. -/
example : Gzipped demoGzip.head.shown ∧
    Reports demoZip (IsHead demoWaiting.request) demoWaiting.log (demoWaiting.run demoZip 2 [.arrive (demoGzip.render.take 60), .readyRead, .arrive (demoGzip.render.drop 60), .readyRead]).log demoGzip ∧
    (demoWaiting.run demoZip 2 [.arrive (demoGzip.render.take 60), .readyRead, .arrive (demoGzip.render.drop 60), .readyRead]).log.drop demoWaiting.log.length =
      [.headersCompleted 200 demoGzip.head.shown, .contentReadyRead b!"x", .contentReadyRead b!"xx", .finished .noError 200 demoGzip.head.shown b!"xx"] :=
  ⟨(gzipped_iff _).1 (by decide +kernel),
    C56_reports_the_response demoZip 2 demoWaiting (wellServed_run demoZip 2 _ (.new ..) (by simp)) demoWaiting_awaiting demoGzip (answers_get (by unfold IsHead; decide +kernel) demoGzip_wf) (by decide +kernel)
      [demoGzip.render.take 60, demoGzip.render.drop 60] _ (.segment _ (.segment _ .nil)) (by simp),
    by decide +kernel⟩

end Pillow.Props
