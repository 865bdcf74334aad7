import Verif.Lemmas.ReplyStale
import Verif.Props.Reply
/-!
# C36: exactly what earlier responses can do to a later one
-/
namespace Pillow.Props
open Pillow Pillow.Spec

/-- **C36.** Whatever has been done with the parser before `clear()`, there is one header, perhaps empty, that is put before the first header of the responses that follow;
nothing else of the past shows: not in the status, not in the content, not in the other headers, and no well-formed response is refused. -/
theorem C36_any_history {r : RespParser} (hr : Used r) : ∃ l : Header, ∀ ms : List Response, (∀ m ∈ ms, m.Wf ∧ m.head.Keeps) → ∀ segs : List Bytes,
    segs.flatten = (ms.map Response.render).flatten →
    (deliverAll r.clear segs).d.hooks = r.d.hooks ++ reportsAfter l ms ∧ (deliverAll r.clear segs).hasError = false := by
  refine ⟨⟨r.d.field, r.d.value⟩, fun ms hm segs hs => ?_⟩
  have hc := rested_clear (used_safe hr).1.1
  obtain ⟨h1, h2⟩ := rested_sequence ms _ _ hc hm
  have ha := deliverAll_flatten segs r.clear hc.safe (by rw [hc.ok]; simp)
  rw [hs] at ha
  exact ⟨ha.hooks.symm.trans h1, by unfold RespParser.hasError at h2 ⊢; rw [← ha.parser]; exact h2⟩

/-- The next response of a parser in which `l` was left. -/
theorem next_shows {r : RespParser} {l : Header} (hr : Rested r l) {m : Response} (hw : m.Wf) : (deliver r m.render).d.hooks = r.d.hooks ++ m.reportAfter l ∧
    (deliver r m.render).hasError = false ∧ (deliver r m.render).statusCode = num m.head.status ∧ (deliver r m.render).headers = glued l m.head.shown ∧
    (deliver r m.render).content = m.content ∧ ((deliver r m.render).shouldKeepAlive = true ↔ m.head.Keeps) := by
  obtain ⟨p2, hf, he⟩ := deliver_responseL hr m hw
  rw [he]
  refine ⟨rfl, hasError_iff.2 (Or.inl hf.ok), hf.knows.status, rfl, rfl, ?_⟩
  show p2.shouldKeepAlive = true ↔ _
  rw [hf.keep]; simp

/-- **C36.** It is the same one header for any next response, as the accessors show it. -/
theorem C36_any_next {r : RespParser} (hr : Used r) : ∃ l : Header, ∀ m : Response, m.Wf →
    (deliver r.clear m.render).headers = glued l m.head.shown ∧ (deliver r.clear m.render).content = m.content ∧
    (deliver r.clear m.render).statusCode = num m.head.status ∧ (deliver r.clear m.render).hasError = false ∧ ((deliver r.clear m.render).shouldKeepAlive = true ↔ m.head.Keeps) := by
  refine ⟨⟨r.d.field, r.d.value⟩, fun m hm => ?_⟩
  obtain ⟨-, h1, h2, h3, h4, h5⟩ := next_shows (rested_clear (used_safe hr).1.1) hm
  exact ⟨h3, h4, h2, h1, h5⟩

/-- **C36.** What is left when a response is given up within a header: the part of that header that was seen. -/
theorem C36_cut {r : RespParser} (hr : Ready r) {h : RHead} (hw : h.Wf) {passed : Bytes} {before : Headers} {last : Header} (hc : StopsIn h passed before last) {m : Response} (hm : m.Wf) :
    (deliver (deliver r passed).clear m.render).headers = glued last m.head.shown ∧ (deliver (deliver r passed).clear m.render).content = m.content ∧
    (deliver (deliver r passed).clear m.render).statusCode = num m.head.status ∧ (deliver (deliver r passed).clear m.render).hasError = false := by
  have h1 := rested_stops (rested_idle (ready_idle hr)) hw hc
  have e : leftAt noHeader before last = last := by cases before <;> simp [leftAt, leftBy, noHeader]
  rw [e] at h1
  obtain ⟨-, h2, h3, h4, h5, -⟩ := next_shows h1 hm
  exact ⟨h4, h5, h3, h2⟩

/-- **C36.** If it is given up twice in a row within the first header, both parts are left. -/
theorem C36_cut_again {r : RespParser} (hr : Ready r) {h h' : RHead} (hw : h.Wf) (hw' : h'.Wf) {passed passed' : Bytes} {before before' : Headers} {last last' : Header}
    (hc : StopsIn h passed before last) (hc' : StopsIn h' passed' before' last') {m : Response} (hm : m.Wf) :
    (deliver (deliver (deliver r passed).clear passed').clear m.render).headers = glued (leftAt last before' last') m.head.shown := by
  have h1 := rested_stops (rested_idle (ready_idle hr)) hw hc
  have e : leftAt noHeader before last = last := by cases before <;> simp [leftAt, leftBy, noHeader]
  rw [e] at h1
  exact (next_shows (rested_stops h1 hw' hc') hm).2.2.2.1

/-- **C36.** Nothing is left when a header of the next response has been completed: the response after it is reported as it is. -/
theorem C36_heals {r : RespParser} (hr : Used r) {m m' : Response} (hm : m.Wf) (hh : m.head.headers ≠ []) (hk : m.head.Keeps) (hm' : m'.Wf) :
    (deliver (deliver r.clear m.render) m'.render).headers = m'.head.shown := by
  have h1 := rested_next (rested_clear (used_safe hr).1.1) m hm hk
  have e : ∀ l, leftBy l m.head.shown = noHeader := by
    intro l
    unfold RHead.shown
    cases hx : m.head.headers with
    | nil => exact absurd hx hh
    | cons a b => rfl
  rw [e] at h1
  rw [(next_shows h1 hm').2.2.2.1]
  cases m'.head.shown <;> simp [glued, noHeader]

/-- **C36.** A response with trailers: all but its last trailer are added to its headers, and that one is put before the first header of the next response. -/
theorem C36_trailers {r : RespParser} (hr : Ready r) {t : Trailed} (hw : t.Wf) : (deliver r t.render).d.hooks = r.d.hooks ++ t.report ∧ (deliver r t.render).hasError = false ∧
    ((deliver r t.render).shouldKeepAlive = true ↔ t.head.Keeps) ∧ ∀ m : Response, m.Wf →
    (deliver (deliver r t.render).clear m.render).headers = glued t.last.shown m.head.shown ∧ (deliver (deliver r t.render).clear m.render).content = m.content ∧
    (deliver (deliver r t.render).clear m.render).statusCode = num m.head.status ∧ (deliver (deliver r t.render).clear m.render).hasError = false := by
  have hi := ready_idle hr
  obtain ⟨p2, d2, he, hok, hk, hh, hf, hv⟩ := deliver_trailed hi t hw
  have hs := (deliver_safe t.render r hi.safe (by rw [hi.ok]; simp)).1.1
  have h1 := rested_clear hs
  rw [he] at h1 ⊢
  refine ⟨hh, hasError_iff.2 (Or.inl hok), by show p2.shouldKeepAlive = true ↔ _; rw [hk]; simp, fun m hm => ?_⟩
  dsimp only at h1
  rw [hf, hv] at h1
  obtain ⟨-, h2, h3, h4, h5, -⟩ := next_shows h1 hm
  exact ⟨h4, h5, h3, h2⟩

/-- **C36.** A response that is given up in its status line or after its head, or not at all, leaves nothing. -/
theorem C36_clean_cut {r : RespParser} (hr : Ready r) {m : Response} (hw : m.Wf) {u : Bytes} (hc : StopsElsewhere m u) {m' : Response} (hm : m'.Wf) :
    (deliver (deliver r u).clear m'.render).d.hooks = (deliver r u).d.hooks ++ m'.report ∧ (deliver (deliver r u).clear m'.render).headers = m'.head.shown ∧
    (deliver (deliver r u).clear m'.render).content = m'.content := by
  have hi := ready_idle hr
  obtain ⟨h1, h2⟩ := deliver_elsewhere hi hw hc
  have h3 := rested_clear (deliver_safe u r hi.safe (by rw [hi.ok]; simp)).1.1
  rw [h1, h2] at h3
  have hg : ∀ hs : Headers, glued ⟨[], []⟩ hs = hs := fun hs => by cases hs <;> simp [glued]
  obtain ⟨h4, -, -, h5, h6, -⟩ := next_shows h3 hm
  unfold Response.reportAfter at h4
  rw [hg] at h4 h5
  exact ⟨h4, h5, h6⟩

/-- **C36, exactly.** A response is given up anywhere, `clear()` is called, and another response arrives: it is reported as if nothing had been received before exactly if the
first was not given up between the first byte of a header and the end of the head, or the other has no headers. -/
theorem C36_exactly {r : RespParser} (hr : Ready r) {m m' : Response} (hw : m.Wf) (hw' : m'.Wf) {u : Bytes} (hu : u <+: m.render) :
    (deliver (deliver r u).clear m'.render).d.hooks = (deliver r u).d.hooks ++ m'.report ↔
      u <+: m.head.statusLine ∨ m.head.render <+: u ∨ m.head.headers = [] ∨ m'.head.headers = [] := by
  rcases stops_cases m hu with hc | ⟨before, last, hc⟩
  · refine ⟨fun _ => ?_, fun _ => (C36_clean_cut hr hw hc hw').1⟩
    cases hc with
    | line h => exact Or.inl h
    | noHeaders h => exact Or.inr (Or.inr (Or.inl h))
    | body h => exact Or.inr (Or.inl ⟨_, rfl⟩)
  · have h1 := rested_stops (rested_idle (ready_idle hr)) hw.head hc
    have e : leftAt noHeader before last = last := by cases before <;> simp [leftAt, leftBy, noHeader]
    rw [e] at h1
    have hne : last.name ≠ [] := by
      cases hc with
      | within hs x rest part e1 hp h0 =>
        show x.name.take part.length ≠ []
        have hn := (hw.head.headers x (by rw [e1]; simp)).name.1
        simp [h0, hn]
      | atEnd hs x e1 => exact (hw.head.headers x (by rw [e1]; simp)).name.1
    rw [(next_shows h1 hw').1]
    show (deliver r u).d.hooks ++ m'.reportAfter last = _ ↔ _
    rw [List.append_right_inj]
    have h3 : m'.reportAfter last = m'.report ↔ m'.head.headers = [] := by
      have : m'.reportAfter last = m'.report ↔ glued last m'.head.shown = m'.head.shown := by
        unfold Response.reportAfter Response.report
        simp
      rw [this]
      unfold RHead.shown
      cases m'.head.headers with
      | nil => simp [glued]
      | cons a b => simp [glued, RHeader.shown, hne]
    rw [h3]
    refine ⟨fun h => Or.inr (Or.inr (Or.inr h)), ?_⟩
    have hlen : m.head.render.length = m.head.statusLine.length + (m.head.headers.map RHeader.render).flatten.length + 2 := by
      unfold RHead.render RHead.statusLine
      simp only [List.length_append, List.length_cons, List.length_nil]
    rintro (h | h | h | h)
    · exfalso
      have := h.length_le
      cases hc with
      | within hs x rest part e1 hp h0 =>
        rw [List.length_append, List.length_append] at this
        exact h0 (List.length_eq_zero_iff.1 (by omega))
      | atEnd hs x e1 =>
        rw [List.length_append, List.length_append] at this
        simp only [List.length_cons, List.length_nil] at this
        omega
    · exfalso
      have := h.length_le
      rw [hlen] at this
      cases hc with
      | within hs x rest part e1 hp h0 =>
        have hl := hp.length_le
        rw [e1] at this
        simp only [List.length_append, List.map_append, List.flatten_append, List.map_cons, List.flatten_cons] at this
        omega
      | atEnd hs x e1 =>
        rw [List.length_append, List.length_append] at this
        simp only [List.length_cons, List.length_nil] at this
        omega
    · exfalso
      cases hc with
      | within hs x rest part e1 hp h0 => rw [h] at e1; simp at e1
      | atEnd hs x e1 => rw [h] at e1; simp at e1
    · exact h

/-! ### The hypotheses are met -/

example : ∃ before last, StopsIn demoSized.head (demoSized.head.statusLine ++ b!"Content-Le") before last ∧ last = ⟨b!"Content-Le", []⟩ :=
  ⟨_, _, .within [] ⟨b!"Content-Length", b!" ", b!"5"⟩ [⟨b!"X-A", b!"", b!"b c"⟩] b!"Content-Le" (by decide +kernel) ⟨b!"ngth: 5\r\n", by decide +kernel⟩ (by decide), by decide +kernel⟩

/-- Both cases of `C36_exactly`, on one response. -/
example : demoSized.head.statusLine ++ b!"Content-Le" <+: demoSized.render ∧ ¬ (demoSized.head.statusLine ++ b!"Content-Le" <+: demoSized.head.statusLine) ∧
    demoSized.head.render ++ b!"he" <+: demoSized.render := by decide +kernel

def demoTrailed : Trailed := ⟨demoChunked.head, b!"0\r\n", b!"", [⟨b!"X-Sum", b!" ", b!"12"⟩], ⟨b!"X-Sig", b!" ", b!"ab"⟩⟩

theorem demoTrailed_wf : demoTrailed.Wf where
  head := demoChunked_wf.head
  chunked := by decide +kernel
  body := .last b!"0" b!"" (by decide +kernel) (Or.inl rfl) (by decide)
  lines := by
    intro x hx
    simp only [demoTrailed, List.cons_append, List.nil_append, List.mem_cons, List.not_mem_nil, or_false] at hx
    rcases hx with rfl | rfl
    all_goals exact ⟨⟨⟨by simp, by decide +kernel⟩, by decide, text_dec _ (by decide +kernel), by decide, by decide⟩, by decide +kernel⟩
  size := by decide +kernel

example : (deliver (deliver {} demoTrailed.render).clear demoSized.render).headers = [⟨b!"X-SigContent-Length", b!"ab5"⟩, ⟨b!"X-A", b!"b c"⟩] :=
  ((C36_trailers .new demoTrailed_wf).2.2.2 demoSized demoSized_wf).1

end Pillow.Props
