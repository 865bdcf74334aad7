import Verif.Spec.Upload
import Verif.Props.Forward
set_option linter.unusedSimpArgs false
set_option linter.unusedVariables false
/-!
# C89: the content a proxy sends upstream
-/
namespace Pillow.Props
open Pillow Pillow.Spec

theorem forwarding_piping {late : Bool} {u : Upstream} {a : List Ev} {r : ReqView} {x : Uploading} (h : Forwarding late u a r x) : Piping u a r x.p := by
  induction h with
  | start s h1 h2 h3 h4 h5 h6 => exact .start s h1 h2 h3 h4 h5 h6
  | step x x' l hx hl hu hs ih =>
    cases l with
    | pipe m =>
      simp only [Uploading.step] at hs
      obtain ⟨p', hp, rfl⟩ := Option.map_eq_some_iff.1 hs
      exact .step _ _ m ih (fun m' e => hl m' (by rw [e])) hp
    | upload n =>
      simp only [Uploading.step] at hs
      split at hs <;> cases hs
      exact ih
    | reap =>
      simp only [Uploading.step] at hs
      split at hs <;> cases hs
      exact ih

/-- While the pipe is not torn down, the connection holds the request the pipe was made for. -/
theorem piping_holds {u : Upstream} {a : List Ev} {r : ReqView} {x : Piped} (h : Piping u a r x) (hf : x.s.c.fault = none) (he : x.s.inEnv = true) (hb : x.broken = false) :
    x.s.c.req = r ∧ x.s.c.viewsValid = true := by
  have ok := piping_ok h hf
  obtain ⟨p, d, hp⟩ := ok.prog
  have hd := hp.broken hb
  refine C64_body x.s ok.reach he hf a r (piping_handler h) ⟨p, ?_, hp.notEnded⟩
  rw [hp.log, hd, List.append_nil]

theorem uploading_fault {u : Upstream} {x x' : Uploading} {l : ULabel} (h : x.step u l = some x') (hf : x'.p.s.c.fault = none) : x.p.s.c.fault = none := by
  cases l with
  | pipe m =>
    simp only [Uploading.step] at h
    obtain ⟨p', hp, rfl⟩ := Option.map_eq_some_iff.1 h
    exact step_fault hp hf
  | upload n => simp only [Uploading.step] at h; split at h <;> cases h; exact hf
  | reap => simp only [Uploading.step] at h; split at h <;> cases h; exact hf

/-- C89, as far as it holds: if the upstream reply does not read any more once the pipe is torn down, what is sent upstream is the content of the forwarded request from its beginning, and it is never
read from memory that is no longer valid, whatever else the client sends, the handlers do, and upstream answers meanwhile. -/
theorem C89_content_partial (u : Upstream) (a : List Ev) (r : ReqView) (x : Uploading) (h : Forwarding false u a r x) (hf : x.p.s.c.fault = none) :
    x.sent <+: r.content ∧ x.stale = false := by
  induction h with
  | start => exact ⟨List.nil_prefix, rfl⟩
  | step x x' l hx hl hu hs ih =>
    have hf0 := uploading_fault hs hf
    obtain ⟨ih1, ih2⟩ := ih hf0
    cases l with
    | pipe m =>
      simp only [Uploading.step] at hs
      obtain ⟨p', hp, rfl⟩ := Option.map_eq_some_iff.1 hs
      exact ⟨ih1, ih2⟩
    | upload n =>
      have hb : x.p.broken = false := by simpa using hu n rfl
      simp only [Uploading.step] at hs
      split at hs
      · rename_i hc
        cases hs
        obtain ⟨h1, h2⟩ := piping_holds (forwarding_piping hx) hf0 hc.2 hb
        refine ⟨?_, by simp [ih2, h2]⟩
        obtain ⟨t, ht⟩ := ih1
        show x.sent ++ x.next n <+: r.content
        unfold Uploading.next
        rw [h1, ← ht, List.drop_left]
        exact (List.prefix_append_right_inj _).2 (List.take_prefix n t)
      · cases hs
    | reap =>
      simp only [Uploading.step] at hs
      split at hs <;> cases hs
      exact ⟨ih1, ih2⟩

/-- C89, and nothing is left out: each reading of `n` bytes while the response is not ended sends the next `n` bytes of the content, or all that remain. -/
theorem C89_progress_partial (u : Upstream) (a : List Ev) (r : ReqView) (x : Uploading) (h : Forwarding false u a r x) (hf : x.p.s.c.fault = none) (hb : x.p.broken = false)
    (hg : x.gone = false) (he : x.p.s.inEnv = true) (n : Nat) :
    ∃ x', x.step u (.upload n) = some x' ∧ x'.sent = r.content.take (x.sent.length + n) ∧ x'.p = x.p := by
  obtain ⟨⟨t, ht⟩, -⟩ := C89_content_partial u a r x h hf
  obtain ⟨h1, -⟩ := piping_holds (forwarding_piping h) hf he hb
  have hs : x.step u (.upload n) = some { x with sent := x.sent ++ x.next n, stale := x.stale || (!x.p.s.c.viewsValid && x.next n != []) } := by
    simp only [Uploading.step]
    rw [if_pos ⟨hg, he⟩]
  refine ⟨_, hs, ?_, rfl⟩
  show x.sent ++ x.next n = _
  unfold Uploading.next
  rw [h1, ← ht, List.drop_left, List.take_length_add_append]

/-- While the response is not ended, the upstream reply is there. -/
theorem forwarding_gone {late : Bool} {u : Upstream} {a : List Ev} {r : ReqView} {x : Uploading} (h : Forwarding late u a r x) (hb : x.p.broken = false) : x.gone = false := by
  have hres : ∀ {p p' : Piped} {k : PTask}, p.resume k = some p' → p.broken = true → p'.broken = true := by
    intro p p' k hp hb
    cases k <;> simp only [Piped.resume, hb] at hp <;> simp at hp <;> subst hp <;> first | exact hb | rfl
  have hmono : ∀ {p p' : Piped} {m : PLabel}, p.step u m = some p' → p.broken = true → p'.broken = true := by
    intro p p' m hp hb
    cases m with
    | conn l =>
      simp only [Piped.step] at hp
      obtain ⟨s', -, rfl⟩ := Option.map_eq_some_iff.1 hp
      simp [Piped.moved, hb]
    | arrive bs => simp only [Piped.step] at hp; split at hp <;> cases hp; exact hb
    | readyRead => simp only [Piped.step] at hp; split at hp <;> simp_all
    | finished f => simp only [Piped.step] at hp; split at hp <;> simp_all
    | resume =>
      simp only [Piped.step] at hp
      split at hp
      · split at hp
        · exact hres hp hb
        · cases hp
      · cases hp
    | destroyed => simp only [Piped.step] at hp; cases hp; rfl
  induction h with
  | start => rfl
  | step x x' l hx hl hu hs ih =>
    cases l with
    | pipe m =>
      simp only [Uploading.step] at hs
      obtain ⟨p', hp, rfl⟩ := Option.map_eq_some_iff.1 hs
      refine ih ?_
      cases hx' : x.p.broken with
      | false => rfl
      | true => have := hmono hp hx'; simp_all
    | upload n => simp only [Uploading.step] at hs; split at hs <;> cases hs; exact ih hb
    | reap =>
      simp only [Uploading.step] at hs
      split at hs
      · rename_i hc; cases hs; rw [hc.1] at hb; cases hb
      · cases hs

/-! ### cases -/

/-- A request with content that is with the handler. -/
def uploadStart (bytes : Bytes) : List Label := [.init, .recv bytes, .call .processInput] ++ taus 4

/-- A step that the rules allow. -/
def _root_.Pillow.Uploading.may (late : Bool) (x : Uploading) : ULabel → Bool
  | .pipe (.conn m) => decide (Proper x.p.s m) && (match m with | .call .close => true | .call _ => false | _ => true)
  | .upload _ => late || !x.p.broken
  | _ => true

def _root_.Pillow.Uploading.runMay (late : Bool) (u : Upstream) (x : Uploading) : List ULabel → Option Uploading
  | [] => some x
  | l :: ls => if x.may late l then (x.step u l).bind (·.runMay late u ls) else none

theorem forwarding_may {late : Bool} {u : Upstream} {a : List Ev} {r : ReqView} : ∀ {ls : List ULabel} {x x' : Uploading}, Forwarding late u a r x →
    x.runMay late u ls = some x' → Forwarding late u a r x'
  | [], x, x', h, hr => by cases hr; exact h
  | l :: ls, x, x', h, hr => by
    rw [Uploading.runMay] at hr
    split at hr
    · rename_i hm
      obtain ⟨t, hs, hr⟩ := Option.bind_eq_some_iff.1 hr
      refine forwarding_may (.step x t l h ?_ ?_ hs) hr
      · rintro m rfl
        simp only [Uploading.may, Bool.and_eq_true, decide_eq_true_eq] at hm
        refine ⟨hm.1, fun _ c hc => ?_⟩
        subst hc
        cases c <;> simp [Writes] at hm ⊢
      · rintro n rfl
        simpa [Uploading.may] using hm
    · cases hr

theorem upload_demo {late : Bool} {line : Bytes} {u : Upstream} {ls : List ULabel} {p : Conf → Uploading → Bool}
    (h : (match Conf.runIf Proper {} (uploadStart line) with
      | some s => (s.inEnv && s.c.fault == none && s.stack == [.env] && match s.c.log.getLast? with | some (.ready r) => r == s.c.req | _ => false) &&
        match Uploading.runMay late u { p := { s := s } } ls with | some x => p s x | none => false
      | none => false) = true) :
    ∃ s x, Forwarding late u s.c.log s.c.req x ∧ p s x = true := by
  split at h
  · rename_i s he
    simp only [Bool.and_eq_true, beq_iff_eq, Bool.or_eq_true] at h
    obtain ⟨⟨⟨⟨k1, k2⟩, k3⟩, k4⟩, k6⟩ := h
    split at k6
    · rename_i x hx
      refine ⟨s, x, forwarding_may (.start s (reach_runIf _ _ _ _ .start he) k1 k2 rfl ?_ ?_) hx, k6⟩
      · split at k4
        · rename_i r hlast
          have hr : r = s.c.req := by simpa using k4
          subst hr
          obtain ⟨b, hb⟩ := List.getLast?_eq_some_iff.1 hlast
          exact ⟨b, [], by rw [hb], by intro e he; cases he⟩
        · cases k4
      · rw [k3]
        intro i hi
        simp at hi
        subst hi
        simp
    · cases k6
  · cases h

/-- A request with content, and another one right behind it. -/
def twoPosts : Bytes := b!"POST /a HTTP/1.1\r\nContent-Length: 4\r\n\r\nabcdPOST /b HTTP/1.1\r\nContent-Length: 6\r\n\r\nsecretGET /c"

/-- The hypotheses of `C89_content_partial` and `C89_progress_partial`: the content is sent in two pieces while upstream already answers. -/
example : ∃ (s : Conf) (x : Uploading), Forwarding false (sized b!"2") s.c.log s.c.req x ∧
    (x.p.s.c.fault == none && x.p.broken == false && x.gone == false && x.p.s.inEnv && x.sent == b!"abcd" && s.c.req.content == b!"abcd" && x.p.s.stack == []) = true :=
  upload_demo (line := twoPosts) (ls := [.upload 3, .pipe (.conn .ret), .pipe (.arrive b!"o"), .pipe .readyRead, .pipe (.conn (.tau 0)), .pipe (.conn (.tau 0)), .pipe .resume, .upload 5])
    (by decide +kernel)

/-- C89 does not hold: upstream answers before it has read the whole content. The response is ended, and the connection goes on with the next request of its client. Before the event loop has deleted the
upstream reply it reads on, and sends the end of *that* request's content upstream, as part of the first one. -/
theorem C89_violation : ∃ u a r x, Forwarding true u a r x ∧ x.p.s.c.fault = none ∧ x.p.s.stack = [] ∧ r.content = b!"abcd" ∧ x.sent = b!"abcret" ∧ ¬ x.sent <+: r.content := by
  obtain ⟨s, x, h1, h2⟩ := upload_demo (late := true) (line := twoPosts) (u := sized b!"2")
    (ls := [.upload 3, .pipe (.conn .ret), .pipe (.arrive b!"ok"), .pipe .readyRead, .pipe (.conn (.tau 0)), .pipe (.conn (.tau 0)), .pipe .resume] ++
      (([PLabel.conn (.tau 0), .conn .ret] ++ ptaus 2 ++ [PLabel.conn .ret] ++ ptaus 5 ++ [PLabel.conn .ret]).map .pipe) ++ [.upload 5])
    (p := fun s x => x.p.s.c.fault == none && x.p.s.stack == [] && s.c.req.content == b!"abcd" && x.sent == b!"abcret") (by decide +kernel)
  simp only [Bool.and_eq_true, beq_iff_eq] at h2
  obtain ⟨⟨⟨h2, h0⟩, h3⟩, h4⟩ := h2
  exact ⟨_, _, _, x, h1, h2, h0, h3, h4, by rw [h3, h4]; decide⟩

/-- … and if the client goes away before the content is sent, and the connection is used for another client, the rest is read from memory that now belongs to that one. -/
theorem C89_violation_freed : ∃ u a r x, Forwarding true u a r x ∧ x.p.s.c.fault = none ∧ x.p.s.stack = [] ∧ x.stale = true := by
  obtain ⟨s, x, h1, h2⟩ := upload_demo (late := true) (line := twoPosts) (u := sized b!"2")
    (ls := [.upload 3, .pipe (.conn .ret), .pipe (.conn (.call .close)), .pipe (.conn (.tau 0)), .pipe (.conn .ret), .pipe (.conn (.tau 0)), .pipe (.conn .init), .upload 1])
    (p := fun s x => x.p.s.c.fault == none && x.p.s.stack == [] && x.stale) (by decide +kernel)
  simp only [Bool.and_eq_true, beq_iff_eq] at h2
  exact ⟨_, _, _, x, h1, h2.1.1, h2.1.2, h2.2⟩

end Pillow.Props
