import Verif.Props.ClientReply
/-!
# C39: what follows a second interim response in the same segment is dropped
-/
namespace Pillow
open Spec

variable {env : ClientEnv} {fuel : Nat} {L : Setting}

/-- The beginning of an interim response. -/
theorem run_interim_part (hu : L.unread = []) (hfree : L.free = false) {segs : List Bytes} {inputs : List CInput} (ha : Arrive segs inputs) :
    ∀ {c : Client} {p : HParser} {t : QData} {y : Bytes}, Mid env L c p t → Inter env L.head p t (segs.flatten ++ y) → y ≠ [] →
      ∃ p1 t1, Mid env L (c.run env fuel inputs) p1 t1 ∧ Inter env L.head p1 t1 y := by
  induction ha with
  | nil => intro c p t y h hi _; exact ⟨p, t, h, by simpa using hi⟩
  | @segment segs inputs s ha ih =>
    intro c p t y h hi hy
    show ∃ p1 t1, Mid env L (Client.run env fuel ((c.step env fuel (.arrive s)).step env fuel .readyRead) inputs) p1 t1 ∧ _
    rw [mid_arrive h hu hfree]
    by_cases hs : s = []
    · rw [if_pos hs]
      subst hs
      exact ih h (by simpa using hi) hy
    · rw [if_neg hs]
      have hi' : Inter env L.head p t (s ++ (segs.flatten ++ y)) := by simpa using hi
      obtain ⟨-, x1, y1, k1, k2, k3⟩ := hi'
      have hne : segs.flatten ++ y ≠ [] := by simp [hy]
      obtain ⟨p1, t1, m1, m2, m3, -⟩ := inject_part (emit_mild env L.free fuel) (emit_log env fuel) (emit_framed env fuel) (emit_fresh env fuel) h k1 hs hne k2
      rw [receive_all m1 m2]
      exact ih m1 ⟨hne, x1, y1, m3, k2, k3⟩ hy
  | @other segs inputs i hi ha ih =>
    intro c p t y h hj hy
    exact ih (mid_harmless hu h hi) hj hy

/-- The end of an interim response, a second one, and more: the rest is dropped. -/
theorem receive_dropped {c : Client} {p : HParser} {t : QData} (h : Mid env L c p t) {y : Bytes} (hy : Inter env L.head p t y) {i : Response} (hi : Interim i) (more : Bytes) :
    ∃ p1 t1, Mid env L (c.receive env (Client.emit env fuel) (y ++ (i.render ++ more))) p1 t1 ∧ Await p1 t1 := by
  obtain ⟨k1, p1, t1, k2, k3⟩ := inject_interim (emit_mild env L.free fuel) (emit_log env fuel) (emit_framed env fuel) (emit_fresh env fuel) h hy (i.render ++ more)
  have hlt : (c.inject env (Client.emit env fuel) (y ++ (i.render ++ more))).2 < (y ++ (i.render ++ more)).length := by
    have := List.length_pos_iff.2 (render_ne i)
    rw [k1]; simp; omega
  have hdrop : (y ++ (i.render ++ more)).drop (c.inject env (Client.emit env fuel) (y ++ (i.render ++ more))).2 = i.render ++ more := by rw [k1]; simp
  obtain ⟨-, p2, t2, n2, n3⟩ := inject_interim (emit_mild env L.free fuel) (emit_log env fuel) (emit_framed env fuel) (emit_fresh env fuel) k2 (inter_await env L.head k3 hi) more
  refine ⟨p2, t2, ?_, n3⟩
  rw [receive_second_all k2 hlt (by rw [hdrop]; exact n2), hdrop]
  exact n2

namespace Props

/-- **C39, what is lost**: in answer to a request arrive, in any segments, the first part of an interim response, and then a segment with the rest of it, a second interim
response and anything else - for instance the final response.  Then nothing of what follows the second interim response in this segment is ever looked at: nothing is reported, the client goes
on waiting, and if the server then sends a response (which it will not, having sent it), it is this one that is reported. -/
theorem C39_dropped (env : ClientEnv) (fuel : Nat) (c : Client) (hs : WellServed env fuel c) (hw : Awaiting c) (i₁ i₂ : Response) (h1 : Interim i₁) (h2 : Interim i₂)
    (segs : List Bytes) (before : List CInput) (ha : Arrive segs before) (rest more : Bytes) (hr : rest ≠ []) (he : segs.flatten ++ rest = i₁.render) :
    let c' := c.run env fuel (before ++ [.arrive (rest ++ i₂.render ++ more), .readyRead])
    c'.responsePending = true ∧ signals (c'.log.drop c.log.length) = [] ∧ c.log <+: c'.log ∧ c'.sock.rx = [] ∧ c'.d.content = [] ∧
    ∀ (m : Response) (segs' : List Bytes) (inputs : List CInput), Answers c.request m → num m.head.status ≠ 100 → Arrive segs' inputs → segs'.flatten = m.render →
      Reports env (IsHead c.request) c.log (c'.run env fuel inputs).log m := by
  intro c'
  obtain ⟨ht, hf⟩ := served_fresh hs
  obtain ⟨hd, d1⟩ : ∃ hd : Bool, (hd = true ↔ IsHead c.request) := by
    by_cases h : IsHead c.request
    · exact ⟨true, by simp [h]⟩
    · exact ⟨false, by simp [h]⟩
  obtain ⟨t, m1, m2⟩ := awaiting_mid env (c := c) false hd hw.pending hw.connected (fun _ => hw.unlimited) (.of_calm hw.onHeaders _) (.of_calm hw.onContent _) d1 ht hf
  obtain ⟨p1, t1, n1, n2⟩ := run_interim_part (fuel := fuel) rfl rfl ha m1 (y := rest) (by rw [he]; exact inter_await env hd m2 h1) hr
  obtain ⟨p2, t2, k1, k2⟩ := receive_dropped (fuel := fuel) n1 n2 h2 more
  have hc' : c' = (c.run env fuel before).receive env (Client.emit env fuel) (rest ++ (i₂.render ++ more)) := by
    have e1 : c' = ((c.run env fuel before).step env fuel (.arrive (rest ++ (i₂.render ++ more)))).step env fuel .readyRead := by
      show c.run env fuel (before ++ [.arrive (rest ++ i₂.render ++ more), .readyRead]) = _
      rw [List.append_assoc]
      unfold Client.run
      rw [List.foldl_append]
      rfl
    rw [e1, mid_arrive n1 rfl rfl, if_neg (by simp [hr])]
  rw [← hc'] at k1
  obtain ⟨l, g1, g2, g3⟩ := k1.told.log
  have hlog : c'.log = c.log ++ l := g1
  refine ⟨k1.told.pending, ?_, ⟨l, hlog.symm⟩, k1.told.rx, ?_, ?_⟩
  · rw [hlog, List.drop_left, g2, k2.sig]
  · rcases g3 with g3 | ⟨all, e1, e2, e3⟩
    · rw [k2.odd] at g3; cases g3
    · rcases e3 with ⟨-, -, e3⟩ | ⟨e3, -⟩
      · rw [e3, k2.content] at e1
        exact (List.append_eq_nil_iff.1 e1).2
      · rw [k2.gz] at e3; cases e3
  · intro m segs' inputs hans h100 harr hfl
    obtain ⟨hd', d1', d2⟩ := fits_of hans
    have : hd' = hd := by
      cases hd <;> cases hd' <;> simp_all
    subst this
    have hp := await_pos (env := env) (O := []) d2 h100 k2 [] (by simp)
    have := run_reports (fuel := fuel) rfl rfl d2 h100 harr (rest := []) k1 hp (by rw [hfl]; simp) (cut_short (by simp))
    rw [← d1]
    exact this.1

/-- The hypotheses of `C39_dropped` are met: the final response is in the same segment as the second interim response, and lost; one that is sent later is reported. -/
example : let c' := demoTaking.run demoEnv 2 ([.arrive b!"HTTP/1.1 100 Con", .readyRead] ++ [.arrive (b!"tinue\r\n\r\n" ++ demoContinue.render ++ demoChunked.render), .readyRead])
    c'.responsePending = true ∧ Reports demoEnv (IsHead demoTaking.request) demoTaking.log (c'.run demoEnv 2 [.arrive demoSized.render, .readyRead]).log demoSized := by
  have h := C39_dropped demoEnv 2 demoTaking demoTaking_served demoTaking_awaiting demoContinue demoContinue demoContinue_interim demoContinue_interim
    [b!"HTTP/1.1 100 Con"] _ (.segment _ .nil) b!"tinue\r\n\r\n" demoChunked.render (by simp) (by decide +kernel)
  exact ⟨h.1, h.2.2.2.2.2 demoSized [demoSized.render] _ (answers_get (by unfold IsHead; decide +kernel) demoSized_wf) (by decide +kernel) (.segment _ .nil) (by simp)⟩

end Props
end Pillow
