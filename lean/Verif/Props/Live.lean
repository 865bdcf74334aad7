import Verif.Spec.Live
import Verif.Lemmas.ConnLive
import Verif.Lemmas.Head
import Verif.Props.Params
set_option linter.unusedSimpArgs false
set_option linter.unusedVariables false
/-!
# C84: no request data is read from memory that was given up
-/
namespace Pillow.Props
open Pillow Pillow.Spec Pillow.Live

/-- C84: while a request is being handled - inside the connection as well as in the handler - the raw fields and the headers
the accessors show point into memory the connection still holds. -/
theorem C84_alive (s : Conf) (hr : Reach Proper s) (hf : s.c.fault = none) (h : Handled s) : s.c.viewsValid = true ∧ s.c.hdrValid = true := by
  refine ⟨?_, (hdrLive_reach hr).busy h⟩
  cases hs : s.stack with
  | cons i rest =>
    have := linv_reach hr
    rw [hs] at this
    exact (tops this hf).views h
  | nil =>
    have hc := reach_core hr (by unfold Conf.inEnv; rw [hs]) hf (by rcases h with e | e <;> rw [e] <;> simp) (by rcases h with e | e <;> rw [e] <;> simp)
    obtain ⟨ph, -, hd⟩ := hc.data
    exact data_views hd h

theorem params_stale (c : Conn) (h : c.requestParams.staleRead = true) : c.staleRead = true ∨ c.viewsValid = false := by
  unfold Conn.requestParams at h
  split at h
  · simpa using h
  · exact .inl h

theorem decoded_stale (c : Conn) (x : Decoded) (h : (c.readDecoded x).staleRead = true) : c.staleRead = true ∨ c.viewsValid = false := by
  cases x <;> simp only [Conn.readDecoded] at h <;> split at h
  all_goals first
    | exact .inl h
    | simpa using h

/-- C84: the connection reads request data that is gone in one place only: in `writeResponse`, when its content is not empty
and the response was already completed while its headers were written.  Foreign code reads such data only by using an
accessor when no request is being handled. -/
theorem C84_reads (s s' : Conf) (l : Label) (hr : Reach Proper s) (hs : s.step l = some s') (h0 : s.c.staleRead = false)
    (h1 : s'.c.staleRead = true) : ¬ Handled s ∧
      ((∃ k content rest, l = .tau k ∧ content ≠ [] ∧ s.stack = .writeResponseRest content :: rest) ∨ (s.inEnv = true ∧ AsksData l)) := by
  have hf : s.c.fault = none := by
    unfold Conf.step at hs
    split at hs
    · cases hs
    · rename_i h; simpa using h
  have hv : s.c.viewsValid = false → ¬ Handled s := fun e h => by rw [(C84_alive s hr hf h).1] at e; cases e
  by_cases hl : ∃ k, l = .tau k
  · obtain ⟨k, rfl⟩ := hl
    obtain ⟨-, i, rest, heq, rfl⟩ := tau_step hs
    have ht := tops (by have := linv_reach hr; rwa [heq] at this) hf
    rcases exec_stale k i s.c h1 with e | e
    · rw [h0] at e; cases e
    cases e with
    | sendContent _ _ k3 => exact absurd (.inl (ht.sendContent rfl)) (hv k3)
    | writeHeaders _ _ k1 k3 => exact absurd (.inl k1) (hv k3)
    | writeContent _ k1 k3 => exact absurd (.inr k1) (hv k3)
    | rest ct k1 k3 => exact ⟨hv k3, .inl ⟨k, ct, rest, rfl, k1, heq⟩⟩
    | sendHeaders _ k2 k3 =>
      rcases (hdrLive_reach hr).recv (ht.sendHeaders rfl) with e | e
      · exact absurd k2 e
      · rw [k3] at e; cases e.1
  · have hini : l ≠ .init ∨ l = .init := (Classical.em _).symm
    unfold Conf.step at hs
    rw [hf] at hs
    simp only [Option.isSome_none, Bool.false_eq_true, ↓reduceIte] at hs
    have no : s'.c.staleRead = s.c.staleRead → False := fun e => by rw [e, h0] at h1; cases h1
    cases l with
    | tau k => exact absurd ⟨k, rfl⟩ hl
    | init =>
      dsimp only at hs
      split at hs <;> cases hs
      refine (no ?_).elim
      simp only [Conn.initialize, Conn.toReceivingHeaders, Conn.emit]
      split <;> rfl
    | call a => dsimp only at hs; split at hs <;> cases hs; exact (no rfl).elim
    | ret => dsimp only at hs; split at hs <;> cases hs; exact (no rfl).elim
    | recv bs =>
      dsimp only at hs
      split at hs
      · split at hs <;> cases hs
        exact (no rfl).elim
      · cases hs
    | bytesWritten k =>
      dsimp only at hs
      split at hs
      · split at hs <;> cases hs
        exact (no rfl).elim
      · cases hs
    | readParams =>
      dsimp only at hs
      split at hs <;> cases hs
      rename_i he
      rcases params_stale s.c h1 with e | e
      · rw [h0] at e; cases e
      · exact ⟨hv e, .inr ⟨he, .inl rfl⟩⟩
    | setParam n v =>
      dsimp only at hs
      split at hs <;> cases hs
      rename_i he
      rcases params_stale s.c h1 with e | e
      · rw [h0] at e; cases e
      · exact ⟨hv e, .inr ⟨he, .inr (.inl ⟨n, v, rfl⟩)⟩⟩
    | readDecoded x =>
      dsimp only at hs
      split at hs <;> cases hs
      rename_i he
      rcases decoded_stale s.c x h1 with e | e
      · rw [h0] at e; cases e
      · exact ⟨hv e, .inr ⟨he, .inr (.inr ⟨x, rfl⟩)⟩⟩

/-! ### Careful use -/

/-- Nothing that will read the request method after the response was written. -/
def Quiet (i : Instr) : Prop := (∀ ct, i = .writeResponseRest ct → ct = []) ∧ ∀ st hs ct, i = .writeResponse st hs ct → ct = []

/-- A `writeResponse` under way, with content, on a response that can have content. -/
inductive Under (c : Conn) : List Instr → Prop where
  | none : Under c []
  | called (st : Int) (hs : Headers) (ct : Bytes) : (c.st = .sendingHeaders → c.req.method ≠ b!"HEAD" ∧ declaredLength ct.length hs ≠ 0) →
      Under c [.writeResponse st hs ct]
  | headers (st : Int) (hs : Headers) (ct : Bytes) : c.st = .sendingHeaders → c.req.method ≠ b!"HEAD" → declaredLength c.respLen hs ≠ 0 →
      Under c [.writeHeaders st hs, .writeResponseRest ct]
  | content (ct : Bytes) : c.st = .sendingHeaders → c.req.method ≠ b!"HEAD" → c.respLen ≠ 0 → Under c [.sendContent, .writeResponseRest ct]
  | tail (ct : Bytes) : c.st = .sendingContent → Under c [.sendContentRest, .writeResponseRest ct]
  | rest (ct : Bytes) : c.st = .sendingContent → Under c [.writeResponseRest ct]

def WInv (s : Conf) : Prop := s.c.fault = none → ∃ pre rest, s.stack = pre ++ rest ∧ Under s.c pre ∧ ∀ i ∈ rest, Quiet i

theorem quiet_push (k : Nat) (i : Instr) (c : Conn) (hq : Quiet i) : ∀ j ∈ (exec k i c).2, Quiet j := by
  have plain : ∀ j : Instr, (∀ ct, j ≠ .writeResponseRest ct) → (∀ st hs ct, j ≠ .writeResponse st hs ct) → Quiet j :=
    fun j h1 h2 => ⟨fun ct e => absurd e (h1 ct), fun st hs ct e => absurd e (h2 st hs ct)⟩
  have key : ∀ l : List Instr, (∀ j ∈ l, (∀ ct, j ≠ .writeResponseRest ct) ∧ (∀ st hs ct, j ≠ .writeResponse st hs ct)) → ∀ j ∈ l, Quiet j :=
    fun l h j hj => plain j (h j hj).1 (h j hj).2
  cases i with
  | writeResponse s hs ct =>
    have : ct = [] := hq.2 s hs ct rfl
    subst this
    simp only [exec, Conn.writeResponse]
    split
    · simp
    · intro j hj
      rcases List.mem_cons.1 hj with rfl | hj
      · exact plain _ (by simp) (by simp)
      · rcases List.mem_cons.1 hj with rfl | hj
        · exact ⟨fun ct e => (by cases e; rfl), fun _ _ _ e => (by cases e)⟩
        · cases hj
  | processInput =>
    apply key
    simp only [exec, Conn.processInput]
    split
    · simp
    · split
      · simp
      · split <;> (try split) <;> (try split) <;> simp
  | recvContent =>
    apply key
    simp only [exec, Conn.recvContent]
    split <;> (try split) <;> (try split) <;> (try split) <;> simp
  | sendHeaders => apply key; simp only [exec, Conn.sendHeaders]; split <;> simp
  | sendContent => apply key; simp only [exec, Conn.sendContent]; split <;> (try split) <;> (try split) <;> simp
  | completed => apply key; simp only [exec, Conn.complete]; split <;> simp
  | completedRest => apply key; simp only [exec, Conn.completedRest]; split <;> simp
  | completedRest2 => apply key; simp [exec, Conn.completedRest2]
  | flush => apply key; simp only [exec, Conn.flush]; split <;> (try split) <;> simp
  | drain => apply key; simp only [exec, Conn.drain]; split <;> simp
  | drainRest => apply key; simp only [exec, Conn.drainRest]; split <;> (try split) <;> simp
  | flushing => apply key; simp only [exec, Conn.toFlushing]; split <;> simp
  | flushingRest => apply key; simp only [exec, Conn.flushingRest]; split <;> (try split) <;> simp
  | closed f => apply key; simp only [exec, Conn.toClosed]; split <;> simp
  | closedRest => apply key; simp [exec, Conn.closedRest]
  | errorResponse code => apply key; simp only [exec, Conn.errorResponse]; split <;> simp
  | writeResponseRest ct => apply key; simp only [exec, Conn.writeResponseRest]; split <;> (try split) <;> simp
  | writeHeaders s hs => apply key; simp only [exec, Conn.writeHeaders]; split <;> (try split) <;> simp
  | writeContent ct => apply key; simp only [exec, Conn.writeContent]; split <;> (try split) <;> (try split) <;> (try split) <;> (try split) <;> (try split) <;> (try split) <;> simp
  | endContent => apply key; simp only [exec, Conn.endContent]; split <;> (try split) <;> simp
  | env => apply key; simp [exec]
  | sendContentRest => apply key; simp [exec, Conn.sendContentRest]

theorem readView_alive {c : Conn} (h : c.viewsValid = true) : c.readView = c := by unfold Conn.readView; rw [if_pos h]

theorem buildHead_len {b : Bytes} {x y : Bool} {r : ReqView} {n st : Int} {hs : Headers} {h : RespHead} (e : buildHead b x r n y st hs = some h) :
    h.len = declaredLength n hs := by
  unfold buildHead at e
  dsimp only at e
  have sp := (scan_spec hs { out := b ++ statusLine r st, len := n }).len
  generalize hs.foldl scanHeader { out := b ++ statusLine r st, len := n } = sc at e sp
  cases hl : lengthLine sc.len with
  | none => rw [hl] at e; cases e
  | some cl =>
    rw [hl, Option.map_some, Option.some.injEq] at e
    subst e
    exact sp

theorem write_resp (c : Conn) (e : Ev) : (c.write e).req = c.req ∧ (c.write e).respLen = c.respLen := by
  unfold Conn.write; split <;> exact ⟨rfl, rfl⟩

/-- The invariant is kept by the object itself. -/
theorem winv_exec {k : Nat} {i : Instr} {c : Conn} {rest : List Instr} (hv : c.st = .sendingHeaders ∨ c.st = .sendingContent → c.viewsValid = true)
    (hf : c.fault = none) (h : WInv ⟨c, i :: rest⟩) : WInv ⟨(exec k i c).1, (exec k i c).2 ++ rest⟩ := by
  obtain ⟨pre, rest', e, hu, hq⟩ := h hf
  intro hf'
  dsimp only at e hu hf'
  cases hu with
  | none =>
    have e : i :: rest = rest' := e
    subst e
    refine ⟨[], _, rfl, .none, fun j hj => ?_⟩
    rcases List.mem_append.1 hj with hj | hj
    · exact quiet_push k i c (hq i (by simp)) j hj
    · exact hq j (by simp [hj])
  | called st hs ct hc =>
    obtain ⟨rfl, rfl⟩ := List.cons.inj e
    simp only [exec, Conn.writeResponse]
    split
    · exact ⟨[], _, rfl, .none, hq⟩
    · rename_i hst
      have hst : c.st = .sendingHeaders := Classical.not_not.1 hst
      exact ⟨_, _, rfl, .headers st hs ct hst (hc hst).1 (hc hst).2, hq⟩
  | headers st hs ct hst hm hl =>
    obtain ⟨rfl, rfl⟩ := List.cons.inj e
    simp only [exec, Conn.writeHeaders] at hf' ⊢
    rw [if_neg (by rw [hst]; simp), readView_alive (hv (.inl hst))] at hf' ⊢
    split at hf'
    · cases hf'
    · rename_i h heq
      have hlen := buildHead_len heq
      obtain ⟨-, w2, -⟩ := Doom.write_keep { c with status := st, respBuf := h.bytes, respLen := h.len, chunked := h.chunked, keepAlive := h.keepAlive } (.head h)
      obtain ⟨v1, v2⟩ := write_resp { c with status := st, respBuf := h.bytes, respLen := h.len, chunked := h.chunked, keepAlive := h.keepAlive } (.head h)
      refine ⟨[.sendContent, .writeResponseRest ct], _, rfl, .content ct (w2.trans hst) ?_ ?_, hq⟩
      · show (Conn.write _ _).req.method ≠ _
        rw [v1]; exact hm
      · show (Conn.write _ _).respLen ≠ _
        rw [v2]
        show h.len ≠ 0
        rw [hlen]; exact hl
  | content ct hst hm hl =>
    obtain ⟨rfl, rfl⟩ := List.cons.inj e
    simp only [exec, Conn.sendContent]
    rw [if_neg (by rw [hst]; simp), if_neg hl, readView_alive (by exact hv (.inl hst))]
    rw [if_neg (by simpa [Conn.isHead] using hm)]
    exact ⟨[.sendContentRest, .writeResponseRest ct], _, rfl, .tail ct rfl, hq⟩
  | tail ct hst =>
    obtain ⟨rfl, rfl⟩ := List.cons.inj e
    refine ⟨[.writeResponseRest ct], _, rfl, .rest ct ?_, hq⟩
    simp only [exec, Conn.sendContentRest]
    split <;> exact hst
  | rest ct hst =>
    obtain ⟨rfl, rfl⟩ := List.cons.inj e
    refine ⟨[], _, rfl, .none, fun j hj => ?_⟩
    rcases List.mem_append.1 hj with hj | hj
    · simp only [exec, Conn.writeResponseRest] at hj
      split at hj
      · cases hj
      · split at hj
        · cases hj
        · rw [List.mem_singleton.1 hj]; exact ⟨fun _ e => (by cases e), fun _ _ _ e => (by cases e)⟩
    · exact hq j hj

theorem winv_reach {s : Conf} (h : Reach Careful s) : WInv s := by
  induction h with
  | start => exact fun _ => ⟨[], [], rfl, .none, by simp⟩
  | step s s' l hr hp hs ih =>
    have hr' : Reach Proper s := reach_mono (fun _ _ k => k.1) hr
    have hf : s.c.fault = none := by
      unfold Conf.step at hs
      split at hs
      · cases hs
      · rename_i h; simpa using h
    by_cases hl : ∃ k, l = .tau k
    · obtain ⟨k, rfl⟩ := hl
      obtain ⟨-, i, rest, heq, rfl⟩ := tau_step hs
      have ht := tops (by have := linv_reach hr'; rwa [heq] at this) hf
      exact winv_exec ht.views hf (by rw [← heq]; exact ih)
    · have henv : s.inEnv = true := by
        unfold Conf.step at hs
        rw [hf] at hs
        simp only [Option.isSome_none, Bool.false_eq_true, ↓reduceIte] at hs
        cases l with
        | tau k => exact absurd ⟨k, rfl⟩ hl
        | ret =>
          dsimp only at hs
          split at hs
          · rename_i rest heq; unfold Conf.inEnv; rw [heq]
          · cases hs
        | _ =>
          dsimp only at hs
          split at hs
          · assumption
          · cases hs
      -- nothing is under way while foreign code runs
      have hq : ∀ i ∈ s.stack, Quiet i := by
        obtain ⟨pre, rest, e, hu, hq⟩ := ih hf
        rcases (inEnv_iff s).1 henv with e0 | ⟨r0, e0⟩
        · rw [e0]; simp
        · rw [e0] at e
          cases hu with
          | none => rw [e0, show Instr.env :: r0 = rest from e]; exact hq
          | called => cases e
          | headers => cases e
          | content => cases e
          | tail => cases e
          | rest => cases e
      have call : ∀ a : Call, Quiet a.instr ∨ ∃ st hs ct, a = .writeResponse st hs ct ∧ ct ≠ [] := by
        intro a
        cases a with
        | writeResponse st hs ct =>
          by_cases hc : ct = []
          · subst hc; exact .inl ⟨fun _ e => (by cases e), fun _ _ _ e => (by cases e; rfl)⟩
          · exact .inr ⟨st, hs, ct, rfl, hc⟩
        | _ => exact .inl ⟨fun _ e => (by cases e), fun _ _ _ e => (by cases e)⟩
      have plain : (∀ i ∈ s'.stack, Quiet i) → WInv s' := fun k _ => ⟨[], _, rfl, .none, k⟩
      unfold Conf.step at hs
      rw [hf] at hs
      simp only [Option.isSome_none, Bool.false_eq_true, ↓reduceIte] at hs
      cases l with
      | tau k => exact absurd ⟨k, rfl⟩ hl
      | call a =>
        dsimp only at hs
        rw [if_pos henv] at hs
        cases hs
        rcases call a with hq' | ⟨st, hs', ct, rfl, hne⟩
        · refine plain fun i hi => ?_
          rcases List.mem_cons.1 hi with rfl | hi
          · exact hq'
          · exact hq i hi
        · intro _
          refine ⟨[.writeResponse st hs' ct], s.stack, rfl, .called st hs' ct fun hst => ?_, hq⟩
          have hlast : ∃ r, (readys s.c.log).getLast? = some r := by
            obtain ⟨ph, hruns, -, hph⟩ := reach_phase hr' henv hf
            rcases hph with ⟨hset, -⟩ | ⟨-, e | ⟨e, -⟩⟩
            · obtain ⟨rfl, -⟩ := (settled_sendH hst).1 hset
              exact ⟨_, req_last hruns s.c.req rfl⟩
            · rw [show s.c.st = _ from hst] at e; cases e
            · rw [show s.c.st = _ from hst] at e; cases e
          obtain ⟨r, hlast⟩ := hlast
          have := hp.2.2 st hs' ct rfl hne r hlast
          rw [(handling_req hr' ⟨henv, hf, .inl hst, hlast⟩).1]
          exact this
      | ret =>
        dsimp only at hs
        split at hs <;> cases hs
        rename_i heq
        exact plain fun i hi => hq i (by rw [heq]; exact List.mem_cons_of_mem _ hi)
      | bytesWritten k =>
        dsimp only at hs
        rw [if_pos henv] at hs
        split at hs
        · cases hs
          refine plain fun i hi => ?_
          dsimp only at hi
          split at hi
          · rcases List.mem_cons.1 hi with rfl | hi
            · exact ⟨fun _ e => (by cases e), fun _ _ _ e => (by cases e)⟩
            · exact hq i hi
          · exact hq i hi
        · cases hs
      | recv bs =>
        dsimp only at hs
        rw [if_pos henv] at hs
        split at hs
        · cases hs
          exact plain hq
        · cases hs
      | init | readParams | setParam _ _ | readDecoded _ =>
        dsimp only at hs
        rw [if_pos henv] at hs
        cases hs
        exact plain hq

/-- C84, for handlers that use the accessors only while a request is being handled and that pass content to `writeResponse`
only where the response can have some: nothing is ever read from memory that was given up.  What is missing is the case
of `C84_violation`. -/
theorem C84_careful_partial (s : Conf) (hr : Reach Careful s) : s.c.staleRead = false := by
  induction hr with
  | start => rfl
  | step s s' l hr hp hs ih =>
    have hr' : Reach Proper s := reach_mono (fun _ _ k => k.1) hr
    cases h : s'.c.staleRead with
    | false => rfl
    | true =>
      obtain ⟨hn, ⟨k, ct, rest, rfl, hne, heq⟩ | ⟨-, ha⟩⟩ := C84_reads s s' l hr' hs ih h
      · have hf := (tau_step hs).1
        obtain ⟨pre, rest', e, hu, hq⟩ := winv_reach hr hf
        rw [heq] at e
        cases hu with
        | none =>
          have := (hq (.writeResponseRest ct) (by rw [← show _ = rest' from e]; simp)).1 ct rfl
          exact absurd this hne
        | called => cases e
        | headers => cases e
        | content => cases e
        | tail => cases e
        | rest ct' hst => exact absurd (.inr hst) hn
      · exact absurd (hp.2.1 ha) hn

/-- Careful moves, decidably. -/
def carefulB (s : Conf) (l : Label) : Bool :=
  decide (Proper s l) && match l with
  | .readParams | .setParam _ _ | .readDecoded _ => s.c.st == .sendingHeaders || s.c.st == .sendingContent
  | .call (.writeResponse _ hs ct) => ct == [] || match (readys s.c.log).getLast? with
    | none => true
    | some r => r.method != b!"HEAD" && declaredLength ct.length hs != 0
  | _ => true

theorem carefulB_careful {s : Conf} {l : Label} (h : carefulB s l = true) : Careful s l := by
  unfold carefulB at h
  rw [Bool.and_eq_true, decide_eq_true_eq] at h
  obtain ⟨h1, h2⟩ := h
  refine ⟨h1, ?_, ?_⟩
  · rintro (rfl | ⟨n, v, rfl⟩ | ⟨d, rfl⟩) <;> simpa [Handled] using h2
  · rintro st hs ct rfl hne r hr
    simp only [hr, Bool.or_eq_true, beq_iff_eq, hne, false_or, Bool.and_eq_true, bne_iff_ne] at h2
    exact h2

/-- The hypotheses of C84: requests with query and content, the parameters and the decoded path read, responses with
content, a HEAD request answered without, on one connection. -/
example : ∃ s, Reach Careful s ∧ Handled s ∧ (readys s.c.log).map (·.method) = [b!"POST", b!"HEAD", b!"GET"] ∧ contentOf s.c.log = b!"abc" ∧
    s.c.params = [(b!"y", b!"2")] := by
  have h : endsIn (fun s l => carefulB s l = true) ([.init, .recv b!"POST /a?x=1 HTTP/1.1\r\nContent-Length: 2\r\n\r\nhiHEAD /a HTTP/1.1\r\n\r\nGET /b?y=2 HTTP/1.1\r\n\r\n",
      .call .processInput] ++ taus 4 ++ [.readParams, .readDecoded .path, .call (.writeResponse 200 [] b!"abc")] ++ taus 7 ++ [.ret] ++ taus 2 ++ [.ret] ++ taus 4 ++
      [.call (.writeResponse 200 [] [])] ++ taus 4 ++ [.ret] ++ taus 2 ++ [.ret] ++ taus 4 ++ [.readParams]) (fun s =>
      s.c.st == .sendingHeaders && (readys s.c.log).map (·.method) == [b!"POST", b!"HEAD", b!"GET"] && contentOf s.c.log == b!"abc" && s.c.params == [(b!"y", b!"2")]) = true := by
    decide +kernel
  obtain ⟨s, hr, hp⟩ := exists_of_endsIn h
  simp only [Bool.and_eq_true, beq_iff_eq] at hp
  exact ⟨s, reach_mono (fun _ _ => carefulB_careful) hr, .inl hp.1.1.1, hp.1.1.2, hp.1.2, hp.2⟩

/-- A HEAD request answered with `writeResponse(200, [], "abc")` when the first bytes of the next request have already been
received. -/
def headThenPart : List Label :=
  [.init, .recv b!"HEAD /a HTTP/1.1\r\n\r\nGET", .call .processInput] ++ taus 3 ++
  [.call (.writeResponse 200 [] b!"abc")] ++ taus 4 ++ [.ret] ++ taus 2 ++ [.ret] ++ taus 4

/-- C84 is false of the code: in this run the buffer is replaced when the response is completed (three bytes of the next
request are kept), and afterwards `writeResponse` compares the method of the request that is gone. -/
theorem C84_violation : ∃ s, Conf.runIf Gentle {} headThenPart = some s ∧ s.c.staleRead = true ∧ s.c.buf = b!"GET" ∧
    (readys s.c.log).map (·.method) = [b!"HEAD"] ∧ s.c.fault = none := by
  have h : ((Conf.runIf Gentle {} headThenPart).map fun s =>
      (s.c.staleRead && s.c.buf == b!"GET" && (readys s.c.log).map (·.method) == [b!"HEAD"] && s.c.fault == none)) = some true := by decide +kernel
  cases hs : Conf.runIf Gentle {} headThenPart with
  | none => rw [hs] at h; cases h
  | some s =>
    rw [hs] at h
    simp only [Option.map_some, Option.some.injEq, Bool.and_eq_true, beq_iff_eq] at h
    exact ⟨s, rfl, h.1.1.1, h.1.1.2, h.1.2, h.2⟩

end Pillow.Props
