import Verif.Spec.ReplyFraming
import Verif.Props.Cut
import Verif.Props.Pace
set_option linter.unusedSimpArgs false
set_option linter.unusedVariables false
/-!
# C97: the client takes a response to end where the standard says it ends
-/
namespace Pillow.Props
open Pillow Pillow.Spec

theorem codings_mem {h : RHead} {v : Bytes} : v ∈ h.codings ↔ ∃ x ∈ h.headers, SameCI x.name b!"transfer-encoding" ∧ x.value = v := by
  unfold RHead.codings
  constructor
  · intro hv
    obtain ⟨x, k1, k2⟩ := List.mem_map.1 hv
    obtain ⟨k3, k4⟩ := List.mem_filter.1 k1
    exact ⟨x, k3, of_decide_eq_true k4, k2⟩
  · rintro ⟨x, k1, k2, k3⟩
    exact List.mem_map.2 ⟨x, List.mem_filter.2 ⟨k1, by simpa using k2⟩, k3⟩

theorem chunked_codings {h : RHead} : h.IsChunked ↔ ∃ v ∈ h.codings, Says v b!"chunked" := by
  constructor
  · rintro ⟨x, k1, k2, k3⟩
    exact ⟨_, codings_mem.2 ⟨x, k1, k2, rfl⟩, k3⟩
  · rintro ⟨v, k1, k2⟩
    obtain ⟨x, k3, k4, rfl⟩ := codings_mem.1 k1
    exact ⟨x, k3, k4, k2⟩

theorem no_codings {h : RHead} (e : h.codings = []) : ¬ h.IsChunked := by
  intro k
  obtain ⟨v, k1, -⟩ := chunked_codings.1 k
  rw [e] at k1
  cases k1

/-- With the usual headers, what the standard takes to be a response is one in the grammar of the parser. -/
theorem usual_wf {h : RHead} (hw : h.Wf) (hu : Usual h) {wire content : Bytes} (hf : FollowedBy h wire content) : Response.Wf ⟨h, wire, content⟩ := by
  refine ⟨hw, ?_⟩
  cases hf with
  | nothing hn =>
    obtain ⟨k1, k2⟩ := hu.nothing hn
    rcases k2 with k2 | k2
    · exact .none (no_codings k1) k2 hn
    · exact .sized [] (no_codings k1) (by rw [k2]; rfl)
  | chunked _ _ v hn hv _ hc =>
    have hm := List.mem_of_getLast? hv
    exact .chunked _ _ (chunked_codings.2 ⟨v, hm, hu.coding v hm⟩) hc
  | sized _ hn hc hl hv =>
    refine .sized _ (no_codings hc) ?_
    unfold RHead.announced
    obtain ⟨v, e⟩ : ∃ v, h.lengths.getLast? = some v := by
      cases e : h.lengths.getLast? with
      | none => exact absurd (List.getLast?_eq_none_iff.1 e) hl
      | some v => exact ⟨v, rfl⟩
    rw [e]
    show some (num v) = _
    unfold num
    rw [hv v (List.mem_of_getLast? e)]
    rfl

theorem arrives_paced {r : ClientRequest} {h : RHead} {wire : Bytes} {inputs : List CInput} (ha : Arrives r h wire inputs) {content : Bytes} (hw : Response.Wf ⟨h, wire, content⟩) :
    Paced r [] ⟨h, wire, content⟩ inputs where
  continues := by simp
  few := by simp
  answers := answers_get ha.get hw
  final := ha.final
  steady := ha.steady
  whole := by rw [ha.whole]; simp [Response.render]

/-- **C97**, what is so: a response that uses no coding but `chunked`, and announces no content it does not have, is reported as what the standard takes it for, with its content,
however it arrives, when the application reads what has arrived; and the next response is not disturbed. -/
theorem C97_same_partial (env : ClientEnv) (fuel : Nat) (c : Client) (hs : WellServed env fuel c) (hw : Expecting c) (h : RHead) (wire content : Bytes) (inputs : List CInput)
    (hf : FollowedBy h wire content) (hu : Usual h) (ha : Arrives c.request h wire inputs) :
    (Reports env False c.log (c.run env fuel inputs).log ⟨h, wire, content⟩ ∨ (c.run env fuel inputs).responsePending = true ∧ (c.run env fuel inputs).sock.rx ≠ []) ∧
    ∀ k, (c.run env fuel inputs).sock.rx.length ≤ k →
      Reports env False c.log (c.run env fuel (inputs ++ takings k)).log ⟨h, wire, content⟩ ∧ WellServed env fuel (c.run env fuel (inputs ++ takings k)) := by
  have hp := arrives_paced ha (usual_wf ha.wf hu hf)
  have e : IsHead c.request ↔ False := ⟨ha.get, False.elim⟩
  have e' : IsHead c.request = False := propext e
  rw [← e']
  exact ⟨C59_reports env fuel c hs hw [] _ inputs hp, fun k hk => C59_drained env fuel c hs hw [] _ inputs hp k hk⟩

/-- **C97**, a response that the standard takes to end with the connection, and that uses no coding: the client waits for the connection to be closed, and shows all that arrived (with an error, as C62 says). -/
theorem C97_until_closed_partial (env : ClientEnv) (fuel : Nat) (c : Client) (hs : WellServed env fuel c) (hw : Expecting c) (h : RHead) (wire : Bytes) (inputs : List CInput)
    (hf : UntilClosed h) (hu : h.codings = []) (ha : Arrives c.request h wire inputs) :
    (c.run env fuel inputs).responsePending = true ∧ ((c.run env fuel inputs).sock.rx = [] → ∀ remoteClosed, ∃ l ct l' all,
      (c.run env fuel (inputs ++ [.error remoteClosed])).log = c.log ++ l ++ .close :: .finished (if remoteClosed then .remoteHostClosed else .network) (num h.status) h.shown ct :: l' ∧
      signals l = [.headersCompleted (num h.status) h.shown] ∧ taken l ++ ct = all ∧ Announced l all ∧ Shown env False ⟨h, wire, wire⟩ all) := by
  have hl : Lasts c.request h wire inputs :=
    ⟨ha.get, ha.wf, ⟨no_codings hu, by unfold RHead.announced; rw [hf.2.2 hu]; rfl, hf.1⟩, ha.final, ha.steady, ha.whole⟩
  exact ⟨(C62_content env fuel c hs hw h wire inputs hl).1, fun hrx rc => (C62_closed env fuel c hs hw h wire inputs hl hrx rc).1⟩

/-- **C97 does not hold** for a 304, 204 or 1xx that announces content, as a 304 may: when all of it has arrived the client waits for as many bytes, without finishing the request; when the connection is closed
it reports an error. -/
theorem C97_waits_violation (env : ClientEnv) (fuel : Nat) (c : Client) (hs : WellServed env fuel c) (hw : Expecting c) (h : RHead) (inputs : List CInput)
    (hn : NoContent (num h.status)) {n : Nat} (hl : h.announced = some (n + 1)) (hc : h.codings = []) (ha : Arrives c.request h [] inputs) :
    FollowedBy h [] [] ∧ (c.run env fuel inputs).responsePending = true ∧ (∃ l, (c.run env fuel inputs).log = c.log ++ l ∧ ∀ x st hs ct, .finished x st hs ct ∉ l) ∧
    ∀ remoteClosed, ∃ l st hs ct l', (c.run env fuel (inputs ++ [.error remoteClosed])).log =
      c.log ++ l ++ .close :: .finished (if remoteClosed then .remoteHostClosed else .network) st hs ct :: l' ∧ ∀ x st hs ct, .finished x st hs ct ∉ l := by
  have hb : BreaksOff c.request [] ⟨h, List.replicate (n + 1) 0, List.replicate (n + 1) 0⟩ inputs (List.replicate (n + 1) 0) :=
    { continues := by simp
      few := by simp
      answers := answers_get ha.get ⟨ha.wf, .sized _ (no_codings hc) (by rw [hl, List.length_replicate])⟩
      final := ha.final
      steady := ha.steady
      begins := by rw [ha.whole]; simp [Response.render]
      missing := by simp [List.replicate] }
  refine ⟨.nothing hn, (C63_pending env fuel c hs hw [] _ inputs _ hb).1, C63_not_finished env fuel c hs hw [] _ inputs _ hb, fun rc => ?_⟩
  obtain ⟨l, st, hs', ct, l', all, k1, -, k3, -⟩ := C63_error env fuel c hs hw [] _ inputs _ hb rc
  refine ⟨l, st, hs', ct, l', k1, fun x st hs ct hm => ?_⟩
  have := k3.signals.subset (signals_mem hm)
  simp at this

/-- … and what the server sends next, `content`, is taken for the content of the 304. -/
theorem C97_takes_more_violation (env : ClientEnv) (fuel : Nat) (c : Client) (hs : WellServed env fuel c) (hw : Expecting c) (h : RHead) (content : Bytes) (inputs : List CInput)
    (hn : NoContent (num h.status)) (hl : h.announced = some content.length) (hc : h.codings = []) (ha : Arrives c.request h content inputs) :
    FollowedBy h [] [] ∧ (Reports env False c.log (c.run env fuel inputs).log ⟨h, content, content⟩ ∨ (c.run env fuel inputs).responsePending = true ∧ (c.run env fuel inputs).sock.rx ≠ []) := by
  have hp := arrives_paced ha (content := content) ⟨ha.wf, .sized _ (no_codings hc) hl⟩
  have e' : IsHead c.request = False := propext ⟨ha.get, False.elim⟩
  rw [← e']
  exact ⟨.nothing hn, C59_reports env fuel c hs hw [] _ inputs hp⟩

/-- **C97 does not hold** for a response in chunks that is coded otherwise, too (`Transfer-Encoding: gzip, chunked`): when all of it has arrived the client waits for the connection to be closed, and shows the
chunks with their sizes as content. -/
theorem C97_codings_violation (env : ClientEnv) (fuel : Nat) (c : Client) (hs : WellServed env fuel c) (hw : Expecting c) (h : RHead) (wire content : Bytes) (inputs : List CInput)
    (hf : FollowedBy h wire content) (hc : h.codings ≠ []) (hno : ∀ v ∈ h.codings, ¬ Says v b!"chunked") (hl : h.lengths = []) (hn : ¬ NoContent (num h.status)) (ha : Arrives c.request h wire inputs) :
    (c.run env fuel inputs).responsePending = true ∧ ((c.run env fuel inputs).sock.rx = [] → ∃ l all, (c.run env fuel inputs).log = c.log ++ l ∧
      signals l = [.headersCompleted (num h.status) h.shown] ∧ taken l ++ (c.run env fuel inputs).d.content = all ∧ Announced l all ∧ Shown env False ⟨h, wire, wire⟩ all) := by
  have hk : ¬ h.IsChunked := fun k => by
    obtain ⟨v, k1, k2⟩ := chunked_codings.1 k
    exact hno v k1 k2
  exact C62_content env fuel c hs hw h wire inputs ⟨ha.get, ha.wf, ⟨hk, by unfold RHead.announced; rw [hl]; rfl, hn⟩, ha.final, ha.steady, ha.whole⟩

/-- **C97 does not hold** for a response whose `Content-Length` headers do not agree, which has no meaning: the last one counts, and the response is reported without an error. -/
theorem C97_lengths_violation (env : ClientEnv) (fuel : Nat) (c : Client) (hs : WellServed env fuel c) (hw : Expecting c) (h : RHead) (vs : List Bytes) (v content : Bytes) (inputs : List CInput)
    (hls : h.lengths = vs ++ [v]) (hv : readNat 10 v = some content.length) (hd : ∃ u ∈ vs, readNat 10 u ≠ some content.length) (hn : ¬ NoContent (num h.status)) (hc : h.codings = [])
    (ha : Arrives c.request h content inputs) :
    (∀ wire ct, ¬ FollowedBy h wire ct) ∧ ¬ UntilClosed h ∧
    (Reports env False c.log (c.run env fuel inputs).log ⟨h, content, content⟩ ∨ (c.run env fuel inputs).responsePending = true ∧ (c.run env fuel inputs).sock.rx ≠ []) := by
  refine ⟨fun wire ct hf => ?_, fun hu => ?_, ?_⟩
  · cases hf with
    | nothing k => exact hn k
    | chunked _ _ u _ k _ _ => rw [hc] at k; cases k
    | sized _ _ _ _ k =>
      obtain ⟨u, k1, k2⟩ := hd
      have e1 := k v (by rw [hls]; simp)
      have e2 := k u (by rw [hls]; simp [k1])
      rw [hv] at e1
      exact k2 (e2.trans e1.symm)
  · have := hu.2.2 hc
    rw [hls] at this
    simp at this
  · have hp := arrives_paced ha (content := content) ⟨ha.wf, .sized _ (no_codings hc) (by
      unfold RHead.announced
      rw [hls, List.getLast?_append]
      show some (num v) = _
      unfold num; rw [hv]; rfl)⟩
    have e' : IsHead c.request = False := propext ⟨ha.get, False.elim⟩
    rw [← e']
    exact C59_reports env fuel c hs hw [] _ inputs hp

/-! ### The hypotheses are met -/

/-- `HTTP/1.1 304 Not Modified` with the length the content would have. -/
def unchanged : RHead := { major := b!"1", minor := b!"1", status := b!"304", reason := b!" Not Modified", headers := [⟨b!"Content-Length", b!" ", b!"5"⟩] }

/-- Compressed, in chunks. -/
def packed : RHead := { major := b!"1", minor := b!"1", status := b!"200", reason := b!" OK", headers := [⟨b!"Transfer-Encoding", b!" ", b!"gzip, chunked"⟩] }

/-- Two lengths. -/
def twoLengths : RHead := { major := b!"1", minor := b!"1", status := b!"200", reason := b!" OK", headers := [⟨b!"Content-Length", b!" ", b!"9"⟩, ⟨b!"Content-Length", b!" ", b!"2"⟩] }

theorem rhead_wf {h : RHead} {a b c : Nat} (h1 : readNat 10 h.major = some a ∧ a ≤ 999) (h2 : readNat 10 h.minor = some b ∧ b ≤ 999) (h3 : readNat 10 h.status = some c ∧ c ≤ 999)
    (h4 : ∃ t, h.reason = 32 :: t ∧ t.all (fun b => b != 13 && b != 10) = true)
    (h5 : ∀ x ∈ h.headers, x.name ≠ [] ∧ (∀ b ∈ x.name, TokenChar b) ∧ (∀ b ∈ x.pad, b = 32 ∨ b = 9) ∧ x.value.all (fun b => b != 13 && b != 10) = true ∧ x.value.head? ≠ some 32 ∧ x.value.head? ≠ some 9)
    (h6 : ∀ v ∈ h.lengths, readNat 10 v = some (num v) ∧ num v < 2 ^ 64 - 1) (h7 : ∀ x ∈ h.headers, SameCI x.name b!"upgrade" → x.value = []) (h8 : h.render.length ≤ 80 * 1024 - 2) : h.Wf where
  major := ⟨a, h1⟩
  minor := ⟨b, h2⟩
  status := ⟨c, h3⟩
  reason := by obtain ⟨t, k1, k2⟩ := h4; exact Or.inr ⟨t, k1, text_dec _ k2⟩
  headers := fun x hx => by
    obtain ⟨k1, k2, k3, k4, k5, k6⟩ := h5 x hx
    exact ⟨⟨k1, k2⟩, k3, text_dec _ k4, k5, k6⟩
  lengths := fun v hv => ⟨_, h6 v hv⟩
  noUpgrade := h7
  size := h8

theorem unchanged_wf : unchanged.Wf :=
  rhead_wf (a := 1) (b := 1) (c := 304) (by decide +kernel) (by decide +kernel) (by decide +kernel) ⟨b!"Not Modified", by decide +kernel, by decide +kernel⟩ (by decide +kernel) (by decide +kernel) (by decide +kernel)
    (by decide +kernel)

theorem packed_wf : packed.Wf :=
  rhead_wf (a := 1) (b := 1) (c := 200) (by decide +kernel) (by decide +kernel) (by decide +kernel) ⟨b!"OK", by decide +kernel, by decide +kernel⟩ (by decide +kernel) (by decide +kernel) (by decide +kernel)
    (by decide +kernel)

theorem twoLengths_wf : twoLengths.Wf :=
  rhead_wf (a := 1) (b := 1) (c := 200) (by decide +kernel) (by decide +kernel) (by decide +kernel) ⟨b!"OK", by decide +kernel, by decide +kernel⟩ (by decide +kernel) (by decide +kernel) (by decide +kernel)
    (by decide +kernel)

/-- A 304 with a length: the client waits; when the connection is closed, the application is told of an error. -/
theorem C97_example_304 : WellServed demoEnv 2 demoTaking ∧ Expecting demoTaking ∧ NoContent (num unchanged.status) ∧ unchanged.announced = some 5 ∧ unchanged.codings = [] ∧
    Arrives demoTaking.request unchanged [] [.arrive unchanged.render, .readyRead, .tick 1000] ∧
    (demoTaking.run demoEnv 2 [.arrive unchanged.render, .readyRead, .tick 1000]).log.drop demoTaking.log.length = [.headersCompleted 304 unchanged.shown] ∧
    (demoTaking.run demoEnv 2 [.arrive unchanged.render, .readyRead, .tick 1000, .error true]).log.drop demoTaking.log.length =
      [.headersCompleted 304 unchanged.shown, .close, .finished .remoteHostClosed 304 unchanged.shown []] :=
  ⟨demoTaking_served, demoTaking_expecting, by decide +kernel, by decide +kernel, by decide +kernel,
    ⟨by unfold IsHead; decide +kernel, unchanged_wf, by decide +kernel, by simp [Steady], by decide +kernel⟩, by decide +kernel, by decide +kernel⟩

/-- A response in two codings: the client shows the chunks, and waits. -/
theorem C97_example_codings : (∃ v, packed.codings.getLast? = some v ∧ LastChunked v) ∧ (∀ v ∈ packed.codings, ¬ Says v b!"chunked") ∧ packed.lengths = [] ∧ ChunkedBody b!"3\r\nabc\r\n0\r\n\r\n" b!"abc" ∧
    Arrives demoTaking.request packed b!"3\r\nabc\r\n0\r\n\r\n" [.arrive (packed.render ++ b!"3\r\nabc\r\n0\r\n\r\n"), .readyRead] ∧
    (demoTaking.run demoEnv 2 [.arrive (packed.render ++ b!"3\r\nabc\r\n0\r\n\r\n"), .readyRead]).log.drop demoTaking.log.length =
      [.headersCompleted 200 packed.shown, .contentReadyRead b!"3\r\nabc\r\n0\r\n\r\n", .consumed b!"3\r\nabc\r\n0\r\n\r\n"] :=
  ⟨⟨b!"gzip, chunked", by decide +kernel, .inr ⟨b!"gzip", b!" ", b!"chunked", by decide +kernel, by decide +kernel, 0, by decide +kernel⟩⟩, by decide +kernel, by decide +kernel,
    .chunk b!"3" [] b!"abc" _ _ (by decide +kernel) (by decide) (by decide) (.inl rfl) (by decide) (.last b!"0" [] (by decide +kernel) (.inl rfl) (by decide)),
    ⟨by unfold IsHead; decide +kernel, packed_wf, by decide +kernel, by simp [Steady], by decide +kernel⟩, by decide +kernel⟩

/-- Two lengths: the last one counts. -/
theorem C97_example_lengths : twoLengths.lengths = [b!"9", b!"2"] ∧ ¬ NoContent (num twoLengths.status) ∧ twoLengths.codings = [] ∧
    Arrives demoTaking.request twoLengths b!"ab" [.arrive (twoLengths.render ++ b!"ab"), .readyRead] ∧
    (demoTaking.run demoEnv 2 [.arrive (twoLengths.render ++ b!"ab"), .readyRead]).log.drop demoTaking.log.length =
      [.headersCompleted 200 twoLengths.shown, .contentReadyRead b!"ab", .consumed b!"ab", .finished .noError 200 twoLengths.shown []] :=
  ⟨by decide +kernel, by decide +kernel, by decide +kernel, ⟨by unfold IsHead; decide +kernel, twoLengths_wf, by decide +kernel, by simp [Steady], by decide +kernel⟩, by decide +kernel⟩

/-- Usual responses: with a length, in chunks, and without content. -/
example : FollowedBy demoSized.head b!"hello" b!"hello" ∧ Usual demoSized.head ∧ Arrives demoTaking.request demoSized.head b!"hello" [.arrive demoSized.render, .readyRead] ∧
    (∃ wire content, FollowedBy demoChunked.head wire content ∧ Usual demoChunked.head ∧ content = b!"abc0123456789") ∧
    ∃ h : RHead, FollowedBy h [] [] ∧ Usual h ∧ h.Wf ∧ num h.status = 304 := by
  refine ⟨.sized _ (by decide +kernel) (by decide +kernel) (by decide +kernel) (by decide +kernel), ⟨fun h => absurd h (by decide +kernel), by decide +kernel⟩,
    ⟨by unfold IsHead; decide +kernel, demoSized_wf.head, by decide +kernel, by simp [Steady], by decide +kernel⟩,
    ⟨demoChunked.wire, demoChunked.content, .chunked _ _ b!"Chunked" (by decide +kernel) (by decide +kernel) (.inl (by decide +kernel)) ?_, ⟨fun h => absurd h (by decide +kernel), by decide +kernel⟩, rfl⟩,
    { unchanged with headers := [] }, .nothing (by decide +kernel), ⟨fun _ => by decide +kernel, by decide +kernel⟩, ?_, by decide +kernel⟩
  · have := demoChunked_wf.body
    cases this with
    | chunked w c _ k => exact k
  · exact rhead_wf (a := 1) (b := 1) (c := 304) (by decide +kernel) (by decide +kernel) (by decide +kernel) ⟨b!"Not Modified", by decide +kernel, by decide +kernel⟩ (by decide +kernel) (by decide +kernel) (by decide +kernel)
      (by decide +kernel)

/-- A response that ends with the connection. -/
example : UntilClosed demoEof ∧ demoEof.codings = [] ∧ Arrives demoTaking.request demoEof b!"gone!" demoLasts := by
  refine ⟨⟨by decide +kernel, ?_, fun _ => by decide +kernel⟩, by decide +kernel, ⟨by unfold IsHead; decide +kernel, demoEof_wf.1, by decide +kernel, by simp [demoLasts, Steady], by decide +kernel⟩⟩
  have : demoEof.codings = [] := by decide +kernel
  rw [this]
  intro v k
  cases k

end Pillow.Props
