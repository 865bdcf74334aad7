import Verif.Spec.Script
import Verif.Props.Forward
import Verif.Props.Handlers
set_option linter.unusedSimpArgs false
set_option linter.unusedVariables false
/-!
# C66: handlers written as scripts; C67: handlers for script files
-/
namespace Pillow.Props
open Pillow Pillow.Spec

/-! ### C66 -/

/-- C66: a value that is not a function handles nothing; what a script returns is what the handler returns, and it calls nothing itself. -/
theorem C66_returns (st : CState) : scriptAfter st none = ⟨[], false⟩ ∧ (∀ b, scriptAfter st (some (.value b)) = ⟨[], b⟩) ∧ ∀ t, (scriptAfter st (some (.error t))).handled = true :=
  ⟨rfl, fun _ => rfl, fun _ => rfl⟩

/-- C66: a script that fails before it has sent anything is answered for: the client gets a 500 with the description of the error, complete at once. Partial: if the response was not ended
while the script was running (see `C66_violation`). `a` is the history when the script was called; `s` the connection when it returned. -/
theorem C66_failed_partial (s : Conf) (hr : Reach Proper s) (he : s.inEnv = true) (hf : s.c.fault = none) (a : List Ev) (r : ReqView) (hw : WithHandler a r) (ho : Open a s.c.log)
    (b : List Ev) (hb : s.c.log = a ++ b) (hn : NothingSent b) (text : Bytes) (hl : text.length < 2147483648) :
    ∃ (n : Nat) (s' : Conf) (h : RespHead), s.run ((scriptAfter s.c.st (some (.error text))).calls.map .call ++ taus n) = some s' ∧ s'.inEnv = true ∧
      HeadSpec r text.length 500 [] h ∧
      s'.c.log = s.c.log ++ [.head h] ++ (if text = [] ∨ r.method = b!"HEAD" then [] else [.body text]) ++ [.completed] := by
  have hwh := withHandler_recv hw hn
  rw [← hb] at hwh
  obtain ⟨hst, rfl⟩ := busy_state hr he hf hwh
  have := C52_at_once s hr he hf hst 500 text hl
  simpa [scriptAfter, hst, fixedHandle] using this

theorem path_begun {p q : Phase} {es : List Ev} (h : Path true p es q) {r : ReqView} (hp : (∃ h n, p = .sending r h n) ∨ ∃ h, p = .ended r h)
    (hne : ∀ e ∈ es, e ≠ .completed ∧ ∀ f u, e ≠ .closed f u) : (∃ h n, q = .sending r h n) ∨ ∃ h, q = .ended r h := by
  induction h with
  | nil => exact hp
  | cons p m q e es hn _ ih =>
    refine ih ?_ (fun e he => hne e (by simp [he]))
    obtain ⟨n1, n2⟩ := hne e (by simp)
    cases hn with
    | init _ hp' => rcases hp' with rfl | rfl <;> simp at hp
    | recv => exact hp
    | interim => simp at hp
    | ready => simp at hp
    | error => simp at hp
    | head r' h => simp at hp
    | body r' h n =>
      have : r' = r := by simpa using hp
      subst this
      split <;> simp
    | chunk r' h n =>
      have : r' = r := by simpa using hp
      subst this
      simp
    | lastChunk r' h n =>
      have : r' = r := by simpa using hp
      subst this
      simp
    | completed => exact absurd rfl n1
    | completedOpen => exact absurd rfl n1
    | forced => exact absurd rfl (n2 _ _)
    | drained => exact absurd rfl (n2 _ _)
    | again => simp at hp

/-- As long as the response is neither begun nor ended, only bytes have arrived. -/
theorem path_busy {p q : Phase} {es : List Ev} (h : Path true p es q) {r : ReqView} (hp : p = .busy r) (hne : ∀ e ∈ es, e ≠ .completed ∧ ∀ f u, e ≠ .closed f u)
    (hq : q = .busy r) : NothingSent es := by
  induction h with
  | nil => intro e he; cases he
  | cons p m q e es hn hpath ih =>
    obtain ⟨n1, n2⟩ := hne e (by simp)
    have hne' := fun e he => hne e (List.mem_cons_of_mem _ he)
    subst hp
    cases hn with
    | init _ hp' => rcases hp' with h | h <;> cases h
    | recv _ bs =>
      have := ih rfl hne' hq
      intro e he
      rcases List.mem_cons.1 he with rfl | he
      · exact ⟨bs, rfl⟩
      · exact this e he
    | head r' h =>
      exfalso
      have := path_begun hpath (r := r) (by split <;> simp) hne'
      rw [hq] at this
      simp at this
    | forced => exact absurd rfl (n2 _ _)

/-- C66: if the script had begun to respond when it failed, the handler leaves the response as it is. -/
theorem C66_begun_partial (s : Conf) (hr : Reach Proper s) (he : s.inEnv = true) (hf : s.c.fault = none) (a : List Ev) (r : ReqView) (hw : WithHandler a r) (ho : Open a s.c.log)
    (b : List Ev) (hb : s.c.log = a ++ b) (hn : ¬ NothingSent b) (text : Bytes) : scriptAfter s.c.st (some (.error text)) = ⟨[], true⟩ := by
  have hst : s.c.st ≠ .sendingHeaders := by
    intro hst
    obtain ⟨b', hlog, hb'⟩ := ho
    have : b' = b := List.append_cancel_left (hlog.symm.trans hb)
    subst this
    obtain ⟨ph, hruns, hne, hph⟩ := reach_phase hr he hf
    rw [hlog] at hruns
    obtain ⟨q, h1, h2⟩ := runs_split hruns
    have := withHandler_busy hw h1
    subst this
    rcases hph with ⟨hs, -⟩ | ⟨-, e | ⟨e, -⟩⟩
    · obtain ⟨h3, -⟩ := (settled_sendH hst).1 hs
      have h4 := path_open h2 (.inl rfl) hb'
      rw [h3] at h4
      have h5 : s.c.req = r := by simpa using h4
      exact hn (path_busy h2 rfl hb' (by rw [h3, h5]))
    · rw [e] at hst; cases hst
    · rw [e] at hst; cases hst
  simp [scriptAfter, hst]

def scriptStart : List Label := [.init, .recv b!"GET /a HTTP/1.1\r\n\r\nGET /b HTTP/1.1\r\n\r\n", .call .processInput] ++ taus 3

/-- C66 is false of the code if the script ends its response before it fails and the next request of the client is handed out meanwhile (to a handler that answers it later): the 500 is
sent to the next request. Here the script called for `/a` has answered 200; when it fails the connection shows `/b`, and `/b` is answered 500. -/
theorem C66_violation : ∃ s, Reach Proper s ∧ s.inEnv = true ∧ s.c.fault = none ∧
    ((match s.c.log with
      | [.init, .recv _, .ready a, .head h, .body _, .completed, .ready b] => a.path == b!"/a" && h.status == 200 && b.path == b!"/b" && s.c.req == b
      | _ => false) &&
      scriptAfter s.c.st (some (.error b!"e")) == ⟨[.writeResponse 500 [] b!"e"], true⟩) = true := by
  obtain ⟨s, h1, h2⟩ := exists_of_endsIn (allowed := Proper)
    (ls := scriptStart ++ [.call (.writeResponse 200 [] b!"x")] ++ taus 7 ++ [.ret] ++ taus 2 ++ [.ret] ++ taus 4 ++ [.ret])
    (p := fun s => s.inEnv && s.c.fault == none &&
      ((match s.c.log with
      | [.init, .recv _, .ready a, .head h, .body _, .completed, .ready b] => a.path == b!"/a" && h.status == 200 && b.path == b!"/b" && s.c.req == b
      | _ => false) &&
      scriptAfter s.c.st (some (.error b!"e")) == ⟨[.writeResponse 500 [] b!"e"], true⟩)) (by decide +kernel)
  simp only [Bool.and_eq_true (s.inEnv && _), Bool.and_eq_true s.inEnv, beq_iff_eq (b := none)] at h2
  exact ⟨s, h1, h2.1.1, h2.1.2, h2.2⟩

/-- The hypotheses of `C66_failed_partial`: the script has sent nothing, and more bytes have arrived. -/
example : ∃ s, Reach Proper s ∧ s.inEnv = true ∧ s.c.fault = none ∧ ∃ a r b, WithHandler a r ∧ Open a s.c.log ∧ s.c.log = a ++ b ∧ NothingSent b ∧ b ≠ [] := by
  obtain ⟨s, h1, h2⟩ := exists_of_endsIn (allowed := Proper) (ls := scriptStart ++ [.recv b!"GET"])
    (p := fun s => s.inEnv && s.c.fault == none && match s.c.log with | [.init, .recv _, .ready _, .recv _] => true | _ => false) (by decide +kernel)
  simp only [Bool.and_eq_true, beq_iff_eq] at h2
  obtain ⟨⟨k1, k2⟩, k3⟩ := h2
  refine ⟨s, h1, k1, k2, ?_⟩
  split at k3
  · rename_i x r y hl
    exact ⟨[.init, .recv x, .ready r], r, [.recv y], ⟨[.init, .recv x], [], rfl, by simp⟩, ⟨[.recv y], by rw [hl]; rfl, by simp⟩, by rw [hl]; rfl, by simp [NothingSent], by simp⟩
  · cases k3

/-- The hypotheses of `C66_begun_partial`: the script has sent a head. -/
example : ∃ s, Reach Proper s ∧ s.inEnv = true ∧ s.c.fault = none ∧ ∃ a r b, WithHandler a r ∧ Open a s.c.log ∧ s.c.log = a ++ b ∧ ¬ NothingSent b := by
  obtain ⟨s, h1, h2⟩ := exists_of_endsIn (allowed := Proper) (ls := scriptStart ++ [.call (.writeHeaders 200 [])] ++ taus 3)
    (p := fun s => s.inEnv && s.c.fault == none && match s.c.log with | [.init, .recv _, .ready _, .head _] => true | _ => false) (by decide +kernel)
  simp only [Bool.and_eq_true, beq_iff_eq] at h2
  obtain ⟨⟨k1, k2⟩, k3⟩ := h2
  refine ⟨s, h1, k1, k2, ?_⟩
  split at k3
  · rename_i x r h hl
    exact ⟨[.init, .recv x, .ready r], r, [.head h], ⟨[.init, .recv x], [], rfl, by simp⟩, ⟨[.head h], by rw [hl]; rfl, by simp⟩, by rw [hl]; rfl, by simp [NothingSent]⟩
  · cases k3

/-! ### C67 -/

section
variable {F : Type} {eval : Bytes → Except Bytes (Bytes → Option F)}

theorem defines_unique {text name : Bytes} {f f' : F} (h : Defines eval text name f) (h' : Defines eval text name f') : f = f' := by
  obtain ⟨o, h1, h2⟩ := h
  obtain ⟨o', h1', h2'⟩ := h'
  rw [h1] at h1'
  injection h1' with h1'
  subst h1'
  rw [h2] at h2'
  injection h2'

/-- What holds in every orderly history. -/
structure HostOk (eval : Bytes → Except Bytes (Bytes → Option F)) (seen : Nat) (h : ScriptHost F) : Prop where
  bound : ∀ v, h.files h.fileName = some v → v.1 ≤ seen
  unloaded : h.lastModified = none → h.function = none
  loaded : ∀ t, h.lastModified = some t → t ≤ seen ∧ (∀ v, h.files h.fileName = some v → t ≤ v.1) ∧
    ∃ f, h.function = some f ∧ ∀ v, h.files h.fileName = some v → v.1 = t → Defines eval v.2 h.functionName f
  last : ∀ f, h.function = some f ↔ LastRan h.outcomes f
  stamping : ∀ f, h.pc = .stamping f → ∃ v, h.files h.fileName = some v ∧ Defines eval v.2 h.functionName f

theorem lastRan_failed {os : List (ScriptOutcome F)} {f : F} : LastRan (os ++ [.failed]) f ↔ LastRan os f := by
  constructor
  · rintro ⟨a, b, e, hb⟩
    rcases List.eq_nil_or_concat b with rfl | ⟨b', x, rfl⟩
    · have := List.append_inj_right' e (by simp)
      simp at this
    · rw [List.concat_eq_append] at e hb
      have e' : os ++ [.failed] = (a ++ .ran f :: b') ++ [x] := by rw [e]; simp
      have := List.append_inj_left' e' (by simp)
      exact ⟨a, b', this, fun o ho => hb o (by simp [ho])⟩
  · rintro ⟨a, b, rfl, hb⟩
    exact ⟨a, b ++ [.failed], by simp, fun o ho => by
      rcases List.mem_append.1 ho with h | h
      · exact hb o h
      · simpa using h⟩

theorem lastRan_ran {os : List (ScriptOutcome F)} {f g : F} : LastRan (os ++ [.ran g]) f ↔ g = f := by
  constructor
  · rintro ⟨a, b, e, hb⟩
    rcases List.eq_nil_or_concat b with rfl | ⟨b', x, rfl⟩
    · have := List.append_inj_right' e (by simp)
      simpa using this
    · rw [List.concat_eq_append] at e hb
      have e' : os ++ [.ran g] = (a ++ .ran f :: b') ++ [x] := by rw [e]; simp
      have := List.append_inj_right' e' (by simp)
      have hx := hb x (by simp)
      rw [hx] at this
      simp at this
  · rintro rfl
    exact ⟨os, [], rfl, by simp⟩

theorem hostOk_fail {seen : Nat} {h : ScriptHost F} (ok : HostOk eval seen h) : HostOk eval seen h.fail :=
  ⟨ok.bound, ok.unloaded, ok.loaded, fun f => (ok.last f).trans lastRan_failed.symm, fun f hf => by cases hf⟩

omit eval in
theorem call_of {h : ScriptHost F} {f : F} (hf : h.function = some f) : h.call = { h with pc := .idle, outcomes := h.outcomes ++ [.ran f] } := by
  unfold ScriptHost.call
  split
  · rename_i g hg
    rw [hf] at hg
    injection hg with hg
    subst hg
    rfl
  · rename_i hg; rw [hf] at hg; cases hg

theorem hostOk_call {seen : Nat} {h : ScriptHost F} (h1 : ∀ v, h.files h.fileName = some v → v.1 ≤ seen) (h2 : h.lastModified ≠ none)
    (h3 : ∀ t, h.lastModified = some t → t ≤ seen ∧ (∀ v, h.files h.fileName = some v → t ≤ v.1) ∧
      ∃ f, h.function = some f ∧ ∀ v, h.files h.fileName = some v → v.1 = t → Defines eval v.2 h.functionName f) : HostOk eval seen h.call := by
  obtain ⟨t, ht⟩ := Option.ne_none_iff_exists'.1 h2
  obtain ⟨-, -, f, hf, -⟩ := h3 t ht
  rw [call_of hf]
  refine ⟨h1, fun k => absurd k h2, fun t' ht' => ?_, fun g => ?_, fun g hg => by cases hg⟩
  · obtain ⟨k1, k2, f', k3, k4⟩ := h3 t' ht'
    rw [hf] at k3
    injection k3 with k3
    subst k3
    exact ⟨k1, k2, f, hf, k4⟩
  · show h.function = some g ↔ LastRan (h.outcomes ++ [.ran f]) g
    rw [lastRan_ran, hf]
    simp

theorem orderly_ok {seen : Nat} {h : ScriptHost F} (ho : WrittenInOrder eval seen h) : HostOk eval seen h := by
  induction ho with
  | start files fileName functionName ar seen hb =>
    refine ⟨hb, fun _ => rfl, fun t ht => (by cases ht), fun f => ⟨fun h => (by cases h), ?_⟩, fun f hf => by cases hf⟩
    rintro ⟨a, b, e, -⟩
    cases a <;> cases e
  | @written seen h h' name v _ hlt hpc hs ih =>
    simp only [ScriptHost.step] at hs
    injection hs with hs
    subst hs
    by_cases hn : name = h.fileName
    · subst hn
      rw [if_pos rfl]
      refine ⟨fun w hw => ?_, ih.unloaded, fun t ht => ?_, ih.last, fun f hf => ?_⟩
      · simp at hw; subst hw; exact Nat.le_refl _
      · obtain ⟨k1, k2, f, k3, k4⟩ := ih.loaded t ht
        refine ⟨by omega, fun w hw => ?_, f, k3, fun w hw he => ?_⟩
        · simp at hw; subst hw; omega
        · simp at hw; subst hw; omega
      · have := hpc rfl
        have hf : h.pc = .stamping f := hf
        rw [hf] at this; simp at this
    · rw [if_neg hn]
      have hfile : (if h.fileName = name then some v else h.files h.fileName) = h.files h.fileName := if_neg (fun e => hn e.symm)
      refine ⟨fun w hw => ?_, ih.unloaded, fun t ht => ?_, ih.last, fun f hf => ?_⟩
      · simp only [hfile] at hw; exact ih.bound w hw
      · simp only [hfile]; exact ih.loaded t ht
      · simp only [hfile]; exact ih.stamping f hf
  | @removed seen h h' name _ hpc hs ih =>
    simp only [ScriptHost.step] at hs
    injection hs with hs
    subst hs
    by_cases hn : name = h.fileName
    · subst hn
      refine ⟨fun w hw => ?_, ih.unloaded, fun t ht => ?_, ih.last, fun f hf => ?_⟩
      · simp at hw
      · obtain ⟨k1, k2, f, k3, k4⟩ := ih.loaded t ht
        exact ⟨k1, fun w hw => by simp at hw, f, k3, fun w hw he => by simp at hw⟩
      · have := hpc rfl
        have hf : h.pc = .stamping f := hf
        rw [hf] at this; simp at this
    · have hfile : (if h.fileName = name then none else h.files h.fileName) = h.files h.fileName := if_neg (fun e => hn e.symm)
      refine ⟨fun w hw => ?_, ih.unloaded, fun t ht => ?_, ih.last, fun f hf => ?_⟩
      · simp only [hfile] at hw; exact ih.bound w hw
      · simp only [hfile]; exact ih.loaded t ht
      · simp only [hfile]; exact ih.stamping f hf
  | @request seen h h' _ hs ih =>
    simp only [ScriptHost.step] at hs
    split at hs
    rotate_left
    · cases hs
    split at hs
    · injection hs with hs
      subst hs
      exact ⟨ih.bound, ih.unloaded, ih.loaded, ih.last, fun f hf => by cases hf⟩
    · rename_i hpc t ht
      split at hs <;> injection hs with hs <;> subst hs
      · exact ⟨ih.bound, ih.unloaded, ih.loaded, ih.last, fun f hf => by cases hf⟩
      · exact hostOk_call ih.bound (by rw [ht]; simp) ih.loaded
  | @next seen h h' _ hs ih =>
    simp only [ScriptHost.step] at hs
    split at hs
    · cases hs
    · split at hs
      · injection hs with hs; subst hs; exact hostOk_fail ih
      · rename_i v hv
        split at hs
        · injection hs with hs; subst hs; exact hostOk_fail ih
        · rename_i o he
          split at hs
          · injection hs with hs; subst hs; exact hostOk_fail ih
          · rename_i f hf
            injection hs with hs
            subst hs
            refine ⟨ih.bound, ih.unloaded, ih.loaded, ih.last, fun g hg => ?_⟩
            injection hg with hg
            subst hg
            exact ⟨v, hv, o, he, hf⟩
    · rename_i f hpc
      injection hs with hs
      subst hs
      obtain ⟨v, hv, hd⟩ := ih.stamping f hpc
      have hm : h.modified = some v.1 := by unfold ScriptHost.modified; rw [hv]; rfl
      refine hostOk_call ih.bound (by rw [hm]; simp) fun t ht => ?_
      have ht : h.modified = some t := ht
      rw [hm] at ht
      injection ht with ht
      subst ht
      refine ⟨ih.bound v hv, fun w hw => ?_, f, rfl, fun w hw _ => ?_⟩
      · have hw : h.files h.fileName = some w := hw
        rw [hv] at hw; injection hw with hw; subst hw; exact Nat.le_refl _
      · have hw : h.files h.fileName = some w := hw
        rw [hv] at hw; injection hw with hw; subst hw; exact hd

/-- A request that loads the file. -/
theorem loads {h : ScriptHost F} {v : Nat × Bytes} (hv : h.files h.fileName = some v)
    (hs : h.step eval .request = some { h with pc := .opening }) : ∃ h' o, Handles eval h h' o ∧ RightOutcome eval v.2 h.functionName o := by
  have hfail : (∀ f, ¬ Defines eval v.2 h.functionName f) → ({ h with pc := .opening } : ScriptHost F).step eval .next = some h.fail →
      ∃ h' o, Handles eval h h' o ∧ RightOutcome eval v.2 h.functionName o := by
    intro hn hs'
    refine ⟨h.fail, .failed, ⟨1, ?_, rfl, rfl⟩, hn⟩
    simp only [ScriptHost.run, List.replicate, hs, Option.bind_some, hs']
  cases he : eval v.2 with
  | error e =>
    refine hfail (fun f => ?_) (by simp only [ScriptHost.step, hv, he]; rfl)
    rintro ⟨o, h1, -⟩
    rw [he] at h1; cases h1
  | ok o =>
    cases hf : o h.functionName with
    | none =>
      refine hfail (fun f => ?_) (by simp only [ScriptHost.step, hv, he, hf]; rfl)
      rintro ⟨o', h1, h2⟩
      rw [he] at h1; injection h1 with h1; subst h1
      rw [hf] at h2; cases h2
    | some f =>
      refine ⟨{ h with pc := .idle, lastModified := h.modified, function := some f, outcomes := h.outcomes ++ [.ran f] }, .ran f, ⟨2, ?_, rfl, rfl⟩, o, he, hf⟩
      simp only [ScriptHost.run, List.replicate, hs, Option.bind_some]
      simp only [ScriptHost.step, hv, he, hf, Option.bind_some, ScriptHost.call]
      rfl

theorem runs_loaded {h : ScriptHost F} {f : F} (hf : h.function = some f) (hs : h.step eval .request = some h.call) : ∃ h', Handles eval h h' (.ran f) := by
  refine ⟨h.call, 0, ?_, ?_, ?_⟩
  · simp only [ScriptHost.run, List.replicate, hs, Option.bind_some]
  · unfold ScriptHost.call; rw [hf]
  · unfold ScriptHost.call; rw [hf]

/-- C67: with `autoReload`, what becomes of a request is what the present text of the file says: the function it defines is run, or there is none and the answer is 500, whatever
was in the file before and whatever became of the requests before. Partial: the file must not be written while it is being loaded (`C67_race`), the times of modification must increase,
and name and function must not be changed after the first load (`C67_setFileName`). -/
theorem C67_current_partial (seen : Nat) (h : ScriptHost F) (ho : WrittenInOrder eval seen h) (hi : h.pc = .idle) (ha : h.autoReload = true) (v : Nat × Bytes)
    (hv : h.files h.fileName = some v) : ∃ h' o, Handles eval h h' o ∧ RightOutcome eval v.2 h.functionName o := by
  have ok := orderly_ok ho
  cases hm : h.lastModified with
  | none => exact loads hv (by simp only [ScriptHost.step, hi, hm])
  | some t =>
    obtain ⟨k1, k2, f, k3, k4⟩ := ok.loaded t hm
    have hmod : h.modified = some v.1 := by unfold ScriptHost.modified; rw [hv]; rfl
    by_cases hlt : v.1 > t
    · exact loads hv (by simp [ScriptHost.step, hi, hm, ha, hmod, later, hlt])
    · obtain ⟨h', hh⟩ := runs_loaded (eval := eval) k3 (by simp [ScriptHost.step, hi, hm, ha, hmod, later, hlt])
      have := k2 v hv
      exact ⟨h', .ran f, hh, k4 v hv (by omega)⟩

/-- C67: as long as no load has succeeded every request tries again, with `autoReload` or without. -/
theorem C67_retries (seen : Nat) (h : ScriptHost F) (ho : WrittenInOrder eval seen h) (hi : h.pc = .idle) (hn : ∀ f, .ran f ∉ h.outcomes) (v : Nat × Bytes)
    (hv : h.files h.fileName = some v) : ∃ h' o, Handles eval h h' o ∧ RightOutcome eval v.2 h.functionName o := by
  have ok := orderly_ok ho
  cases hm : h.lastModified with
  | none => exact loads hv (by simp only [ScriptHost.step, hi, hm])
  | some t =>
    obtain ⟨-, -, f, k3, -⟩ := ok.loaded t hm
    obtain ⟨a, b, e, -⟩ := (ok.last f).1 k3
    exact absurd (by rw [e]; simp) (hn f)

/-- C67: without `autoReload`, or when the file is gone, the function that was run last is run again. -/
theorem C67_kept (seen : Nat) (h : ScriptHost F) (ho : WrittenInOrder eval seen h) (hi : h.pc = .idle) (hk : h.autoReload = false ∨ h.files h.fileName = none) (f : F)
    (hl : LastRan h.outcomes f) : ∃ h', Handles eval h h' (.ran f) := by
  have ok := orderly_ok ho
  have hf := (ok.last f).2 hl
  cases hm : h.lastModified with
  | none => have := ok.unloaded hm; rw [hf] at this; cases this
  | some t =>
    refine runs_loaded hf ?_
    rcases hk with hk | hk
    · simp [ScriptHost.step, hi, hm, hk]
    · have hmod : h.modified = none := by unfold ScriptHost.modified; rw [hk]; rfl
      simp [ScriptHost.step, hi, hm, hmod, later]

/-- C67: between requests the settings can be changed at any time; each setter changes what it is named after and nothing else. -/
theorem C67_settings (h : ScriptHost F) (hi : h.pc = .idle) :
    (∀ b, ∃ h', h.step eval (.setAutoReload b) = some h' ∧ h'.autoReload = b ∧ h'.pc = .idle ∧
      (h'.files, h'.fileName, h'.functionName, h'.lastModified, h'.function, h'.outcomes) = (h.files, h.fileName, h.functionName, h.lastModified, h.function, h.outcomes)) ∧
    (∀ n, ∃ h', h.step eval (.setFunctionName n) = some h' ∧ h'.functionName = n ∧ h'.pc = .idle ∧
      (h'.files, h'.fileName, h'.autoReload, h'.lastModified, h'.function, h'.outcomes) = (h.files, h.fileName, h.autoReload, h.lastModified, h.function, h.outcomes)) ∧
    (∀ n, ∃ h', h.step eval (.setFileName n) = some h' ∧ h'.fileName = n ∧ h'.pc = .idle ∧
      (h'.files, h'.functionName, h'.autoReload, h'.lastModified, h'.function, h'.outcomes) = (h.files, h.functionName, h.autoReload, h.lastModified, h.function, h.outcomes)) := by
  refine ⟨fun b => ⟨{ h with autoReload := b }, ?_, rfl, hi, rfl⟩, fun n => ⟨{ h with functionName := n }, ?_, rfl, hi, rfl⟩, fun n => ⟨{ h with fileName := n }, ?_, rfl, hi, rfl⟩⟩ <;>
    simp [ScriptHost.step, hi]

/-- C67: if there is no file and nothing was loaded the answer is 500. -/
theorem C67_missing (seen : Nat) (h : ScriptHost F) (ho : WrittenInOrder eval seen h) (hi : h.pc = .idle) (hn : ∀ f, .ran f ∉ h.outcomes) (hk : h.files h.fileName = none) :
    ∃ h', Handles eval h h' .failed := by
  have ok := orderly_ok ho
  cases hm : h.lastModified with
  | none =>
    refine ⟨h.fail, 1, ?_, rfl, rfl⟩
    simp [ScriptHost.run, List.replicate, ScriptHost.step, hi, hm, hk, ScriptHost.fail]
  | some t =>
    obtain ⟨-, -, f, k3, -⟩ := ok.loaded t hm
    obtain ⟨a, b, e, -⟩ := (ok.last f).1 k3
    exact absurd (by rw [e]; simp) (hn f)

end

/-- A toy script language: the text defines under every name its first byte; an empty text is an error. -/
def firstByte (text : Bytes) : Except Bytes (Bytes → Option Byte) :=
  match text with
  | [] => .error []
  | b :: _ => .ok fun _ => some b

def demoHost (ar : Bool) : ScriptHost Byte := { files := fun n => if n = b!"s.js" then some (1, b!"a") else none, fileName := b!"s.js", functionName := b!"f", autoReload := ar }

theorem demo_start (ar : Bool) : WrittenInOrder firstByte 1 (demoHost ar) := .start _ _ _ _ _ (by
  intro v hv
  simp at hv
  subst hv
  exact Nat.le_refl _)

/-- The hypotheses of `C67_current_partial` and `C67_kept`: the script was loaded, then the file was written again. -/
example (ar : Bool) : ∃ h, WrittenInOrder firstByte 5 h ∧ h.pc = .idle ∧ h.autoReload = ar ∧ h.files h.fileName = some (5, b!"b") ∧ h.outcomes = [.ran 97] ∧ LastRan h.outcomes (97 : Byte) := by
  have h1 := WrittenInOrder.request (demo_start ar) rfl
  have h2 := WrittenInOrder.next (WrittenInOrder.next h1 rfl) rfl
  exact ⟨_, WrittenInOrder.written b!"s.js" (5, b!"b") h2 (by decide) (fun _ => rfl) rfl, rfl, rfl, by simp [ScriptHost.call, demoHost], rfl, [], [], rfl, by simp⟩

/-- The hypotheses of `C67_retries`: the first load failed, the second version is in order. -/
example : ∃ h : ScriptHost Byte, WrittenInOrder firstByte 7 h ∧ h.pc = .idle ∧ (∀ f, .ran f ∉ h.outcomes) ∧ h.files h.fileName = some (7, b!"b") ∧ h.outcomes = [.failed] := by
  have h0 := WrittenInOrder.written b!"s.js" (5, []) (demo_start false) (by decide) (fun _ => rfl) rfl
  have h1 := WrittenInOrder.next (WrittenInOrder.request h0 rfl) rfl
  exact ⟨_, WrittenInOrder.written b!"s.js" (7, b!"b") h1 (by decide) (fun _ => rfl) rfl, rfl, by simp [ScriptHost.fail, demoHost], by simp [ScriptHost.fail, demoHost], rfl⟩

/-- The hypotheses of `C67_missing`. -/
example : ∃ h : ScriptHost Byte, WrittenInOrder firstByte 1 h ∧ h.pc = .idle ∧ (∀ f, .ran f ∉ h.outcomes) ∧ h.files h.fileName = none :=
  ⟨_, WrittenInOrder.removed b!"s.js" (demo_start true) (fun _ => rfl) rfl, rfl, by simp [demoHost], by simp [demoHost]⟩

/-- C67 is false of the code if the file is written between the reading of it and the second look at its time: the new version is not loaded, then or ever. -/
theorem C67_race : ∃ h, (demoHost true).run firstByte [.request, .next, .change b!"s.js" (some (9, b!"b")), .next] = some h ∧ h.pc = .idle ∧ h.files h.fileName = some (9, b!"b") ∧
    ∀ n h', h.run firstByte (List.replicate n .request) = some h' → h'.outcomes = h.outcomes ++ List.replicate n (.ran 97) := by
  refine ⟨_, rfl, rfl, by simp [ScriptHost.call, demoHost], ?_⟩
  intro n
  generalize hh : ScriptHost.call _ = h
  have hinv : h.pc = .idle ∧ h.autoReload = true ∧ h.function = some 97 ∧ h.lastModified = some 9 ∧ h.modified = some 9 := by
    rw [← hh]; exact ⟨rfl, rfl, rfl, by decide, by decide⟩
  clear hh
  induction n generalizing h with
  | zero => intro h' e; cases e; simp
  | succ n ih =>
    intro h' e
    obtain ⟨i1, i2, i3, i4, i5⟩ := hinv
    simp only [List.replicate_succ, ScriptHost.run] at e
    have hs : h.step firstByte .request = some h.call := by simp [ScriptHost.step, i1, i4, i2, i5, later]
    rw [hs, Option.bind_some] at e
    have hc := call_of i3
    have := ih h.call (by rw [hc]; exact ⟨rfl, i2, i3, i4, i5⟩) h' e
    rw [this, hc]
    simp [List.replicate_succ]

/-- C67 is false of the code after `setFileName()`: the script that was loaded goes on being run, unless the other file happens to be newer. -/
theorem C67_setFileName : ∃ h, (demoHost true).run firstByte [.request, .next, .next, .change b!"t.js" (some (1, b!"b")), .setFileName b!"t.js", .request] = some h ∧ h.pc = .idle ∧
    h.fileName = b!"t.js" ∧ h.files h.fileName = some (1, b!"b") ∧ h.outcomes = [.ran 97, .ran 97] :=
  ⟨_, rfl, rfl, rfl, by decide, rfl⟩

end Pillow.Props
