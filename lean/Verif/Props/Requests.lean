import Verif.Lemmas.Run
import Verif.Lemmas.QtInt
set_option linter.unusedSimpArgs false
/-!
# C08, C11–C14: which requests a connection hands to its user, and which streams it refuses

All theorems speak about every configuration `s` reachable in an environment that satisfies `Proper`: any sequence of
deliveries, API calls from anywhere (including from inside the signals), device events; only `initialize()` is
restricted to connections that are not in use.  `epoch s.c.log` is what happened since the last `initialize()`,
`received` are the bytes that arrived, `readys` the requests passed on with `requestReady`.
-/
namespace Pillow.Props
open Pillow Pillow.Spec

/-- C12, C13, C14: the requests handed out are exactly the requests at the start of the byte stream, in order: each is a
well-formed head of acceptable length with as many content bytes behind it as it announces, and the next one starts
right behind it.  `rest` is what follows; an error reply is justified by what `rest` starts with. -/
theorem C13_exact_requests (s : Conf) (h : Reach Proper s) :
    ∃ reqs rest, Requests (received (epoch s.c.log)) reqs rest ∧ readys (epoch s.c.log) = shownAll reqs ∧
      ∀ code, Ev.errorReply code ∈ epoch s.c.log → ErrorReason code rest :=
  (reach_log h).1

theorem waiting_rest {s : Conf} (h : Reach Proper s) (hw : Waiting s) : ∃ reqs rest, Hist s.c.log reqs rest ∧
    ¬ Complete rest ∧ ∀ code, ¬ ErrorReason code rest := by
  have hc := reach_core h (by rw [inEnv_iff]; exact .inl hw.idle) hw.alive
    (by rcases hw.state with e | e <;> rw [e] <;> simp) (by rcases hw.state with e | e <;> rw [e] <;> simp)
  obtain ⟨ph, -, hd⟩ := hc.data
  rw [hw.idle] at hd
  have hd : Settled true s.c ph := hd
  have hin : s.c.inp = [] := hw.allRead
  rcases hw.state with e | e
  · obtain ⟨-, reqs, s0, n, h1, h2, h3, -, -, -, h4⟩ := (settled_recvH e).1 hd
    obtain ⟨rfl, hlen⟩ := h4 rfl
    rw [List.take_length] at h3
    rw [hin, List.append_nil] at h1
    exact ⟨reqs, _, h1, live_waiting s0 _ h3 hlen⟩
  · obtain ⟨reqs, hd, tail, n, h1, h2, h3⟩ := (settled_recvC e).1 hd
    have hh := h1.head.hist
    rw [hin, List.append_nil] at hh
    exact ⟨reqs, _, hh, content_waiting hd h1.head.wf h1.head.short tail n h1.announced h1.small (h3 rfl)⟩

/-- C12, C13: no request is lost or held back.  When the connection waits, every complete request at the start of the
stream has been handed out, and there was no reason for an error reply. -/
theorem C13_nothing_held_back (s : Conf) (h : Reach Proper s) (hw : Waiting s) (reqs : List (ReqHead × Bytes)) (rest : Bytes)
    (hr : Requests (received (epoch s.c.log)) reqs rest) :
    shownAll reqs <+: readys (epoch s.c.log) ∧ (∀ code, Ev.errorReply code ∉ epoch s.c.log) := by
  obtain ⟨reqs', rest', h1, h2, h3⟩ := waiting_rest h hw
  refine ⟨?_, h1.noErr⟩
  rw [h1.ready]
  rcases Requests.unique hr h1.stream with ⟨e, -⟩ | ⟨e, -, -⟩ | ⟨-, -, e⟩
  · rw [show shownAll reqs = shownAll reqs' from e]; exact List.prefix_refl _
  · exact e
  · exact absurd e h2

/-- C13, exactly: when the connection waits and the stream is cut into as many requests as possible, these are the
requests handed out. -/
theorem C13_exactly (s : Conf) (h : Reach Proper s) (hw : Waiting s) (reqs : List (ReqHead × Bytes)) (rest : Bytes)
    (hr : Requests (received (epoch s.c.log)) reqs rest) (hc : ¬ Complete rest) :
    readys (epoch s.c.log) = shownAll reqs := by
  obtain ⟨reqs', rest', h1, h2, h3⟩ := waiting_rest h hw
  rw [h1.ready]
  rcases Requests.unique hr h1.stream with ⟨e, -⟩ | ⟨-, -, e⟩ | ⟨-, -, e⟩
  · exact e.symm
  · exact absurd e hc
  · exact absurd e h2

/-! ### C08 -/

/-- C08, safety: two connections that received the same bytes — however these were cut, interleaved with calls, read at
whatever time — never hand out different requests: one sequence is a prefix of the other. -/
theorem C08_prefix (s t : Conf) (hs : Reach Proper s) (ht : Reach Proper t)
    (he : received (epoch s.c.log) = received (epoch t.c.log)) :
    readys (epoch s.c.log) <+: readys (epoch t.c.log) ∨ readys (epoch t.c.log) <+: readys (epoch s.c.log) := by
  obtain ⟨r1, x1, h1, e1, -⟩ := C13_exact_requests s hs
  obtain ⟨r2, x2, h2, e2, -⟩ := C13_exact_requests t ht
  rw [← he] at h2
  rw [e1, e2]
  rcases Requests.unique h1 h2 with ⟨e, -⟩ | ⟨e, -⟩ | ⟨e, -⟩
  · left; rw [show shownAll r1 = shownAll r2 from e]; exact List.prefix_refl _
  · exact .inl e
  · exact .inr e

/-- C08: when both wait for input, they handed out the same requests and no error reply. -/
theorem C08_same_requests (s t : Conf) (hs : Reach Proper s) (ht : Reach Proper t) (ws : Waiting s) (wt : Waiting t)
    (he : received (epoch s.c.log) = received (epoch t.c.log)) :
    readys (epoch s.c.log) = readys (epoch t.c.log) ∧
    ∀ code, Ev.errorReply code ∉ epoch s.c.log ∧ Ev.errorReply code ∉ epoch t.c.log := by
  obtain ⟨r1, x1, h1, c1, -⟩ := waiting_rest hs ws
  obtain ⟨r2, x2, h2, c2, -⟩ := waiting_rest ht wt
  refine ⟨?_, fun code => ⟨h1.noErr code, h2.noErr code⟩⟩
  rw [h1.ready, h2.ready]
  have h2' := h2.stream
  rw [← he] at h2'
  rcases Requests.unique h1.stream h2' with ⟨e, -⟩ | ⟨-, -, e⟩ | ⟨-, -, e⟩
  · exact e
  · exact absurd e c1
  · exact absurd e c2

/-- C08: if one of them sent an error reply, the other one does not hand out more requests, cannot come to wait for
input, and if it sends an error reply, it is the same one after the same requests. -/
theorem C08_same_error (s t : Conf) (hs : Reach Proper s) (ht : Reach Proper t)
    (he : received (epoch s.c.log) = received (epoch t.c.log)) (code : Int) (hc : Ev.errorReply code ∈ epoch s.c.log) :
    readys (epoch t.c.log) <+: readys (epoch s.c.log) ∧ ¬ Waiting t ∧
    ∀ code', Ev.errorReply code' ∈ epoch t.c.log → code' = code ∧ readys (epoch t.c.log) = readys (epoch s.c.log) := by
  obtain ⟨r1, x1, h1, e1, w1⟩ := C13_exact_requests s hs
  have hr := w1 code hc
  have hnc := errorReason_not_complete hr
  refine ⟨?_, ?_, ?_⟩
  · obtain ⟨r2, x2, h2, e2, -⟩ := C13_exact_requests t ht
    rw [← he] at h2
    rw [e1, e2]
    rcases Requests.unique h1 h2 with ⟨e, -⟩ | ⟨-, -, e⟩ | ⟨e, -⟩
    · rw [show shownAll r1 = shownAll r2 from e]; exact List.prefix_refl _
    · exact absurd e hnc
    · exact e
  · intro wt
    obtain ⟨r2, x2, h2, c2, d2⟩ := waiting_rest ht wt
    have h2' := h2.stream
    rw [← he] at h2'
    rcases Requests.unique h1 h2' with ⟨-, e⟩ | ⟨-, -, e⟩ | ⟨-, -, e⟩
    · exact d2 code (e ▸ hr)
    · exact hnc e
    · exact c2 e
  · intro code' hc'
    obtain ⟨r2, x2, h2, e2, w2⟩ := C13_exact_requests t ht
    have hr2 := w2 code' hc'
    rw [← he] at h2
    rw [e1, e2]
    rcases Requests.unique h1 h2 with ⟨e, e'⟩ | ⟨-, -, e⟩ | ⟨-, -, e⟩
    · exact ⟨errorReason_unique hr2 (e' ▸ hr), e.symm⟩
    · exact absurd e hnc
    · exact absurd e (errorReason_not_complete hr2)

/-! ### C11, C12: refusals -/

/-- C11, C12: an error reply is only sent after the requests of a valid stream prefix, and for a reason. -/
theorem C11_error_justified (s : Conf) (h : Reach Proper s) (code : Int) (hc : Ev.errorReply code ∈ epoch s.c.log) :
    ∃ reqs rest, Requests (received (epoch s.c.log)) reqs rest ∧ readys (epoch s.c.log) = shownAll reqs ∧
      ErrorReason code rest := by
  obtain ⟨reqs, rest, h1, h2, h3⟩ := C13_exact_requests s h
  exact ⟨reqs, rest, h1, h2, h3 code hc⟩

/-- C11, C12: once the stream contains something to refuse, nothing from there on is handed out, and the connection does
not wait for more input: it has replied, or a request before that is still being handled. -/
theorem C11_refused (s : Conf) (h : Reach Proper s) (reqs : List (ReqHead × Bytes)) (rest : Bytes) (code : Int)
    (hr : Requests (received (epoch s.c.log)) reqs rest) (he : ErrorReason code rest) :
    readys (epoch s.c.log) <+: shownAll reqs ∧ ¬ Waiting s ∧
    ∀ code', Ev.errorReply code' ∈ epoch s.c.log → code' = code ∧ readys (epoch s.c.log) = shownAll reqs := by
  have hnc := errorReason_not_complete he
  refine ⟨?_, ?_, ?_⟩
  · obtain ⟨r2, x2, h2, e2, -⟩ := C13_exact_requests s h
    rw [e2]
    rcases Requests.unique hr h2 with ⟨e, -⟩ | ⟨-, -, e⟩ | ⟨e, -⟩
    · rw [show shownAll reqs = shownAll r2 from e]; exact List.prefix_refl _
    · exact absurd e hnc
    · exact e
  · intro w
    obtain ⟨r2, x2, h2, c2, d2⟩ := waiting_rest h w
    rcases Requests.unique hr h2.stream with ⟨-, e⟩ | ⟨-, -, e⟩ | ⟨-, -, e⟩
    · exact d2 code (e ▸ he)
    · exact hnc e
    · exact c2 e
  · intro code' hc'
    obtain ⟨r2, x2, h2, e2, w2⟩ := C13_exact_requests s h
    have hr2 := w2 code' hc'
    rw [e2]
    rcases Requests.unique hr h2 with ⟨e, e'⟩ | ⟨-, -, e⟩ | ⟨-, -, e⟩
    · exact ⟨errorReason_unique hr2 (e' ▸ he), e.symm⟩
    · exact absurd e hnc
    · exact absurd e (errorReason_not_complete hr2)

/-- C11: the bytes of the replies. -/
theorem C11_reply_bytes : (Ev.errorReply 400).wire = b!"HTTP/1.0 400 Bad Request\r\nConnection: close\r\n\r\n" ∧
    (Ev.errorReply 413).wire = b!"HTTP/1.0 413 Request Entity Too Large\r\nConnection: close\r\n\r\n" := by
  decide +kernel

/-- C12: a head that announces a negative length is refused with 400, one whose length cannot be read or exceeds
128 MiB with 413. -/
theorem C12_reasons (h : ReqHead) (hw : h.Wf) (hs : h.render.length ≤ headLimit) (rest : Bytes) :
    (∀ n, announcedLength h = some n → n < 0 → ErrorReason 400 (h.render ++ rest)) ∧
    (announcedLength h = none → ErrorReason 413 (h.render ++ rest)) ∧
    (∀ n, announcedLength h = some n → 128 * 1024 * 1024 < n → ErrorReason 413 (h.render ++ rest)) :=
  ⟨fun n h1 h2 => .inr ⟨h, hw, hs, List.prefix_append _ _, .inl ⟨rfl, n, h1, h2⟩⟩,
   fun h1 => .inr ⟨h, hw, hs, List.prefix_append _ _, .inr ⟨rfl, .inl h1⟩⟩,
   fun n h1 h2 => .inr ⟨h, hw, hs, List.prefix_append _ _, .inr ⟨rfl, .inr ⟨n, h1, by
    have : (128 * 1024 * 1024 : Int) = contentLimit := by decide
    omega⟩⟩⟩⟩

/-- C12: without `Content-Length` the announced length is 0. -/
theorem C12_no_length (h : ReqHead) (hn : ∀ l ∈ h.headers, ¬ SameCI l.name b!"content-length") : announcedLength h = some 0 := by
  unfold announcedLength
  have : h.headers.filter (fun l => decide (SameCI l.name b!"content-length")) = [] := by
    rw [List.filter_eq_nil_iff]; intro l hl; simpa using hn l hl
  rw [this]; rfl

/-- C12, what a `Content-Length` says: the last header of that name announces `n` iff its value is the decimal number `n` (blanks before it and a sign are allowed, and what follows a NUL
is ignored) and `n` is in the range of `int`; otherwise nothing is announced (and the answer is 413). -/
theorem C12_number (h : ReqHead) (l : HeaderLine) (hl : (h.headers.filter (fun l => decide (SameCI l.name b!"content-length"))).getLast? = some l) (n : Int) :
    announcedLength h = some n ↔ SaysNumber l.value n ∧ -2147483648 ≤ n ∧ n < 2147483648 := by
  unfold announcedLength
  rw [hl]
  exact qtToInt_iff l.value n

/-- A value that is a number, with a tab before it. -/
example : SaysNumber b!"\t+042" 42 ∧ ¬ ∃ n, SaysNumber b!"5 " n := by
  refine ⟨⟨b!"\t", b!"+", b!"042", [], 42, rfl, by simp, .inl rfl, by decide +kernel, .inl ⟨.inr rfl, rfl⟩⟩, ?_⟩
  rintro ⟨n, hn⟩
  rw [saysNumber_iff] at hn
  exact absurd hn (by rw [show signedVal (dropSpaces (cString b!"5 ")) = none by decide +kernel]; simp)

/-- C12, the decision: with a complete head at the start of what follows the requests `reqs`, a waiting connection has
handed out more than `reqs` iff as much content as announced has arrived; and the next request it hands out is this
one with exactly the announced bytes. -/
theorem C12_content (s : Conf) (h : Reach Proper s) (hw : Waiting s) (reqs : List (ReqHead × Bytes)) (hd : ReqHead) (tail : Bytes)
    (hr : Requests (received (epoch s.c.log)) reqs (hd.render ++ tail)) (hwf : hd.Wf) (hs : hd.render.length ≤ headLimit)
    (n : Nat) (ha : announcedLength hd = some (n : Int)) (hn : (n : Int) ≤ contentLimit) :
    (n ≤ tail.length → shownAll reqs ++ [hd.shown (tail.take n)] <+: readys (epoch s.c.log)) ∧
    (tail.length < n → readys (epoch s.c.log) = shownAll reqs) := by
  constructor
  · intro hle
    have hlen : (tail.take n).length = n := by simp; omega
    have := Requests.snoc hd (tail.take n) (tail.drop n) hr (by simp) ⟨hwf, hs, by rw [hlen]; exact ha, by rw [hlen]; exact hn⟩
    have := (C13_nothing_held_back s h hw _ _ this).1
    simpa [shownAll] using this
  · intro hlt
    exact C13_exactly s h hw reqs _ hr (content_waiting hd hwf hs tail n ha hn hlt).1

/-! ### C14 -/

/-- C14, for all targets that do not have an empty query string: the accessors show the bytes of the client. -/
theorem C14_accessors_partial (s : Conf) (h : Reach Proper s) (r : ReqView) (hr : r ∈ readys (epoch s.c.log)) :
    ∃ (hd : ReqHead) (content : Bytes), hd.Wf ∧ (∃ pre post, received (epoch s.c.log) = pre ++ hd.render ++ content ++ post) ∧
      ((∀ p, hd.target ≠ .origin p (some [])) → r = hd.view content) := by
  obtain ⟨reqs, rest, h1, h2, -⟩ := C13_exact_requests s h
  rw [h2] at hr
  have key : ∀ {st : Bytes} {reqs : List (ReqHead × Bytes)} {rest : Bytes}, Requests st reqs rest → r ∈ shownAll reqs →
      ∃ (hd : ReqHead) (content : Bytes), hd.Wf ∧ (∃ pre post, st = pre ++ hd.render ++ content ++ post) ∧ r = hd.shown content := by
    intro st reqs rest hq
    induction hq with
    | nil => intro hr; simp [shownAll] at hr
    | cons hd content st reqs rest ha _ ih =>
      intro hr
      simp only [shownAll, List.map_cons, List.mem_cons] at hr
      rcases hr with rfl | hr
      · exact ⟨hd, content, ha.wf, ⟨[], st, by simp⟩, rfl⟩
      · obtain ⟨hd', c', k1, ⟨pre, post, k2⟩, k3⟩ := ih hr
        exact ⟨hd', c', k1, ⟨hd.render ++ content ++ pre, post, by rw [k2]; simp⟩, k3⟩
  obtain ⟨hd, content, k1, k2, k3⟩ := key h1 hr
  refine ⟨hd, content, k1, k2, fun hne => ?_⟩
  rw [k3]
  unfold ReqHead.shown
  split
  · rename_i p ht; exact absurd ht (hne p)
  · rfl

/-- The accessors keep showing the request while it is being handled: in the two sending states they show the request
announced last. -/
theorem C14_stable (s : Conf) (h : Reach Proper s) (he : s.inEnv = true) (hf : s.c.fault = none)
    (hst : s.c.st = .sendingHeaders ∨ s.c.st = .sendingContent) :
    (readys s.c.log).getLast? = some s.c.req ∧ s.c.viewsValid = true := by
  have hc := reach_core h he hf (by rcases hst with e | e <;> rw [e] <;> simp) (by rcases hst with e | e <;> rw [e] <;> simp)
  obtain ⟨ph, hruns, hd⟩ := hc.data
  have hd := (inEnv_settled he).1 hd
  have key : ∀ {log : List Ev} {ph : Phase}, Runs true log ph →
      ∀ r, (ph = .busy r ∨ (∃ h n, ph = .sending r h n) ∨ (∃ h, ph = .ended r h)) → (readys log).getLast? = some r := by
    intro log ph hr
    induction hr with
    | start => rintro r (e | ⟨_, _, e⟩ | ⟨_, e⟩) <;> cases e
    | step log p p' e hr hn ih =>
      intro r hr'
      rw [readys_snoc]
      cases hn with
      | init p hp => rcases hr' with e | ⟨_, _, e⟩ | ⟨_, e⟩ <;> cases e
      | recv p bs => simpa [Ev.request] using ih r hr'
      | interim => rcases hr' with e | ⟨_, _, e⟩ | ⟨_, e⟩ <;> cases e
      | ready i r' _ =>
        rcases hr' with e | ⟨_, _, e⟩ | ⟨_, e⟩
        · cases e; simp [Ev.request]
        · cases e
        · cases e
      | error code => rcases hr' with e | ⟨_, _, e⟩ | ⟨_, e⟩ <;> cases e
      | head r' h _ =>
        have : r = r' := by
          split at hr' <;> rcases hr' with e | ⟨_, _, e⟩ | ⟨_, e⟩ <;> cases e <;> rfl
        subst this
        simpa [Ev.request] using ih r (.inl rfl)
      | body r' h n bs _ _ _ _ _ =>
        have : r = r' := by
          split at hr' <;> rcases hr' with e | ⟨_, _, e⟩ | ⟨_, e⟩ <;> cases e <;> rfl
        subst this
        simpa [Ev.request] using ih r (.inr (.inl ⟨_, _, rfl⟩))
      | chunk r' h n bs _ _ _ _ =>
        have : r = r' := by rcases hr' with e | ⟨_, _, e⟩ | ⟨_, e⟩ <;> cases e; rfl
        subst this
        simpa [Ev.request] using ih r (.inr (.inl ⟨_, _, rfl⟩))
      | lastChunk r' h n _ _ =>
        have : r = r' := by rcases hr' with e | ⟨_, _, e⟩ | ⟨_, e⟩ <;> cases e; rfl
        subst this
        simpa [Ev.request] using ih r (.inr (.inl ⟨_, _, rfl⟩))
      | completed r' h => unfold Phase.after at hr'; split at hr' <;> rcases hr' with e | ⟨_, _, e⟩ | ⟨_, e⟩ <;> cases e
      | completedOpen r' h n _ _ _ => unfold Phase.after at hr'; split at hr' <;> rcases hr' with e | ⟨_, _, e⟩ | ⟨_, e⟩ <;> cases e
      | forced p u _ _ => rcases hr' with e | ⟨_, _, e⟩ | ⟨_, e⟩ <;> cases e
      | drained => rcases hr' with e | ⟨_, _, e⟩ | ⟨_, e⟩ <;> cases e
      | again _ => rcases hr' with e | ⟨_, _, e⟩ | ⟨_, e⟩ <;> cases e
  rcases hst with e | e
  · obtain ⟨rfl, -, -, -, -, h6, -⟩ := (settled_sendH e).1 hd
    exact ⟨key hruns _ (.inl rfl), h6⟩
  · obtain ⟨h, n, rfl, -, -, -, -, -, h7⟩ := (settled_sendC e).1 hd
    exact ⟨key hruns _ (.inr (.inl ⟨_, _, rfl⟩)), h7⟩

/-- C14 is false of the code for an empty query string: the accessor of the uri shows a NUL instead of the `?`. -/
theorem C14_violation : ∃ s, Reach Proper s ∧ received s.c.log = b!"GET /abc? HTTP/1.1\r\n\r\n" ∧
    (readys s.c.log).map (·.uri) = [b!"/abc\x00"] := by
  obtain ⟨t, h1, h2⟩ := exists_of_endsIn (allowed := Proper)
    (ls := [.init, .recv b!"GET /abc? HTTP/1.1\r\n\r\n", .call .processInput] ++ taus 3)
    (p := fun s => received s.c.log == b!"GET /abc? HTTP/1.1\r\n\r\n" && (readys s.c.log).map (·.uri) == [b!"/abc\x00"])
    (by decide +kernel)
  simp only [Bool.and_eq_true, beq_iff_eq] at h2
  exact ⟨t, h1, h2.1, h2.2⟩

/-! ### the hypotheses are met -/

/-- A request with content, answered, and the first bytes of the next one; all the deliveries given are concatenated. -/
def waitingRun (deliveries : List Bytes) : List Label :=
  .init :: deliveries.map .recv ++ [.call .processInput] ++ taus 4 ++ [.call (.writeResponse 204 [] b!"")] ++ taus 4 ++
    [.ret] ++ taus 2 ++ [.ret] ++ taus 4 ++ [.ret]

/-- Two connections that received the same bytes in different pieces; both wait, and both have handed out one request
with its content. -/
example : ∃ s t, Reach Proper s ∧ Reach Proper t ∧ Waiting s ∧ Waiting t ∧
    received (epoch s.c.log) = b!"POST /a?b HTTP/1.1\r\nContent-Length: 3\r\n\r\nxyzGET" ∧
    received (epoch t.c.log) = received (epoch s.c.log) ∧ (readys (epoch s.c.log)).map (·.content) = [b!"xyz"] := by
  let p : Conf → Bool := fun s => s.stack == [] && s.c.fault == none && unread s.c == [] && s.c.st == .receivingHeaders &&
    received (epoch s.c.log) == b!"POST /a?b HTTP/1.1\r\nContent-Length: 3\r\n\r\nxyzGET" &&
    (readys (epoch s.c.log)).map (·.content) == [b!"xyz"]
  obtain ⟨s, h1, h2⟩ := exists_of_endsIn (allowed := Proper) (p := p)
    (ls := waitingRun [b!"POST /a?b HTTP/1.1\r\nContent-Length: 3\r\n\r\nxyzGET"]) (by decide +kernel)
  obtain ⟨t, h3, h4⟩ := exists_of_endsIn (allowed := Proper) (p := p)
    (ls := waitingRun [b!"POST /a?b HT", b!"TP/1.1\r\nContent-Length: 3\r", b!"\n\r\nx", b!"yzGET"]) (by decide +kernel)
  simp only [p, Bool.and_eq_true, beq_iff_eq] at h2 h4
  obtain ⟨⟨⟨⟨⟨a1, a2⟩, a3⟩, a4⟩, a5⟩, a6⟩ := h2
  obtain ⟨⟨⟨⟨⟨b1, b2⟩, b3⟩, b4⟩, b5⟩, b6⟩ := h4
  exact ⟨s, t, h1, h3, ⟨a1, a2, a3, .inl a4⟩, ⟨b1, b2, b3, .inl b4⟩, a5, b5.trans a5.symm, a6⟩

/-- An error reply is sent. -/
example : ∃ s, Reach Proper s ∧ Ev.errorReply 413 ∈ epoch s.c.log := by
  obtain ⟨t, h1, h2⟩ := exists_of_endsIn (allowed := Proper)
    (ls := [.init, .recv b!"PUT /a HTTP/1.1\r\nContent-Length: x\r\n\r\nGET", .call .processInput] ++ taus 3)
    (p := fun s => decide (Ev.errorReply 413 ∈ epoch s.c.log)) (by decide +kernel)
  exact ⟨t, h1, by simpa using h2⟩

end Pillow.Props
