import Verif.Spec.Proxy
import Verif.Props.File
set_option linter.unusedSimpArgs false
set_option linter.unusedVariables false
/-!
# Lemmas about connections nobody answers on, and the invariant of a pipe
-/
namespace Pillow.Props
open Pillow Pillow.Spec

/-- No event of a response. -/
def Ev.still : Ev → Bool
  | .head _ | .body _ | .chunk _ | .lastChunk => false
  | _ => true

def NoOutput (es : List Ev) : Prop := ∀ e ∈ es, Ev.still e = true

def Instr.answers : Instr → Bool
  | .writeContent _ | .writeResponse _ _ _ | .writeHeaders _ _ | .endContent => true
  | .writeResponseRest ct => ct ≠ []
  | _ => false

theorem noAnswer_iff (l : List Instr) : NoAnswer l ↔ ∀ i ∈ l, Instr.answers i = false := by
  unfold NoAnswer
  constructor
  · intro h i hi
    obtain ⟨h1, h2, h3, h4, h5⟩ := h i hi
    cases i with
    | writeContent ct => exact absurd rfl (h1 _)
    | writeResponse st hs ct => exact absurd rfl (h2 _ _ _)
    | writeHeaders st hs => exact absurd rfl (h3 _ _)
    | endContent => exact absurd rfl h4
    | writeResponseRest ct => simp [Instr.answers, h5 ct rfl]
    | _ => rfl
  · intro h i hi
    have := h i hi
    cases i <;> simp_all [Instr.answers]

theorem noAnswer_cons {i : Instr} {l : List Instr} : NoAnswer (i :: l) ↔ Instr.answers i = false ∧ NoAnswer l := by simp [noAnswer_iff]
theorem noAnswer_append {a b : List Instr} : NoAnswer (a ++ b) ↔ NoAnswer a ∧ NoAnswer b := by
  simp only [noAnswer_iff, List.mem_append]
  constructor
  · intro h; exact ⟨fun i hi => h i (.inl hi), fun i hi => h i (.inr hi)⟩
  · rintro ⟨h1, h2⟩ i (hi | hi)
    · exact h1 i hi
    · exact h2 i hi

structure StillOut (c : Conn) (o : Out) : Prop where
  stack : NoAnswer o.2
  log : ∃ es, o.1.log = c.log ++ es ∧ NoOutput es

theorem stillOut_same {c c' : Conn} {l : List Instr} (h : c'.log = c.log) (hl : NoAnswer l) : StillOut c (c', l) :=
  ⟨hl, [], by simpa using h, by intro e he; cases he⟩
theorem stillOut_one {c c' : Conn} {l : List Instr} {e : Ev} (h : c'.log = c.log ++ [e]) (hl : NoAnswer l) (he : Ev.still e = true) :
    StillOut c (c', l) := ⟨hl, [e], h, by intro e' he'; cases List.mem_singleton.1 he'; exact he⟩

theorem exec_still (k : Nat) (i : Instr) (c : Conn) (hi : Instr.answers i = false) : StillOut c (exec k i c) := by
  cases i with
  | writeContent ct => cases hi
  | writeResponse st hs ct => cases hi
  | writeHeaders st hs => cases hi
  | endContent => cases hi
  | writeResponseRest ct =>
    have : ct = [] := by simpa [Instr.answers] using hi
    subst this
    exact stillOut_same (by simp [exec, Conn.writeResponseRest]) (by simp [noAnswer_iff, exec, Conn.writeResponseRest])
  | env => exact stillOut_same rfl (by simp [noAnswer_iff])
  | processInput =>
    simp only [exec, Conn.processInput]
    repeat' split
    all_goals exact stillOut_same (by simp [Conn.fill, Conn.parse]) (by simp [noAnswer_iff, Instr.answers])
  | recvContent =>
    simp only [exec, Conn.recvContent]
    split
    · exact stillOut_same rfl (by simp [noAnswer_iff])
    split
    · exact stillOut_same (by simp [Conn.setup]) (by simp [noAnswer_iff, Instr.answers])
    split
    · exact stillOut_same (by simp [Conn.setup]) (by simp [noAnswer_iff, Instr.answers])
    split
    · split
      · generalize hc2 : ({ ({ c with st := CState.receivingContent } : Conn).setup with clen := _ } : Conn) = c2
        have hl : c2.log = c.log := by rw [← hc2]; simp [Conn.setup]
        rcases write_log c2 .interim with h | h
        · exact stillOut_same (by dsimp only; rw [h, hl]) (by simp [noAnswer_iff, Instr.answers])
        · exact stillOut_one (by dsimp only; rw [h, hl]) (by simp [noAnswer_iff, Instr.answers]) rfl
      · exact stillOut_same (by simp [Conn.setup]) (by simp [noAnswer_iff, Instr.answers])
    · exact stillOut_same (by simp [Conn.setup]) (by simp [noAnswer_iff, Instr.answers])
  | sendHeaders =>
    simp only [exec, Conn.sendHeaders]
    split
    · exact stillOut_same rfl (by simp [noAnswer_iff])
    · have key : ∀ (c2 : Conn) (r : ReqView), c2.log = c.log → StillOut c (c2.emit (.ready r), [.env]) := fun c2 r h2 =>
        stillOut_one (e := .ready r) (by simp [Conn.emit, h2]) (by simp [noAnswer_iff, Instr.answers]) rfl
      apply key
      split <;> rfl
  | sendContent =>
    simp only [exec, Conn.sendContent]
    split
    · exact stillOut_same rfl (by simp [noAnswer_iff])
    split
    · exact stillOut_same rfl (by simp [noAnswer_iff, Instr.answers])
    · split
      · exact stillOut_same (by simp only [Conn.readView]; split <;> rfl) (by simp [noAnswer_iff, Instr.answers])
      · exact stillOut_same (by simp only [Conn.readView]; split <;> rfl) (by simp [noAnswer_iff, Instr.answers])
  | sendContentRest =>
    simp only [exec, Conn.sendContentRest]
    exact stillOut_same (by split <;> rfl) (by simp [noAnswer_iff])
  | completed =>
    simp only [exec, Conn.complete]
    split
    · exact stillOut_same rfl (by simp [noAnswer_iff])
    · exact stillOut_one rfl (by simp [noAnswer_iff, Instr.answers]) rfl
  | completedRest =>
    simp only [exec, Conn.completedRest]
    split <;> exact stillOut_same rfl (by simp [noAnswer_iff, Instr.answers])
  | completedRest2 =>
    simp only [exec, Conn.completedRest2]
    exact stillOut_same (by simp only [Conn.toReceivingHeaders]; split <;> rfl) (by simp [noAnswer_iff, Instr.answers])
  | flush =>
    simp only [exec, Conn.flush]
    repeat' split
    all_goals exact stillOut_same rfl (by simp [noAnswer_iff, Instr.answers])
  | drain =>
    simp only [exec, Conn.drain]
    split <;> exact stillOut_same rfl (by simp [noAnswer_iff, Instr.answers])
  | drainRest =>
    simp only [exec, Conn.drainRest]
    repeat' split
    all_goals exact stillOut_same rfl (by simp [noAnswer_iff, Instr.answers])
  | flushing =>
    simp only [exec, Conn.toFlushing]
    split <;> exact stillOut_same rfl (by simp [noAnswer_iff, Instr.answers])
  | flushingRest =>
    simp only [exec, Conn.flushingRest]
    repeat' split
    all_goals exact stillOut_same rfl (by simp [noAnswer_iff])
  | closed forced =>
    simp only [exec, Conn.toClosed]
    split
    · exact stillOut_same rfl (by simp [noAnswer_iff])
    · exact stillOut_one rfl (by simp [noAnswer_iff, Instr.answers]) rfl
  | closedRest => exact stillOut_same rfl (by simp [noAnswer_iff])
  | errorResponse code =>
    simp only [exec, Conn.errorResponse]
    split
    · exact stillOut_same rfl (by simp [noAnswer_iff])
    · rcases write_log c (.errorReply code) with h | h
      · exact stillOut_same h (by simp [noAnswer_iff, Instr.answers])
      · exact stillOut_one h (by simp [noAnswer_iff, Instr.answers]) rfl

theorem step_still {s s' : Conf} {l : Label} (hq : NoAnswer s.stack) (hw : ∀ c, l = .call c → ¬ Writes c) (h : s.step l = some s') :
    NoAnswer s'.stack ∧ ∃ es, s'.c.log = s.c.log ++ es ∧ NoOutput es := by
  have hnone : NoOutput [] := by intro e he; cases he
  unfold Conf.step at h
  split at h
  · cases h
  cases l with
  | tau k =>
    dsimp only at h
    split at h
    · cases h
    · cases h
    · rename_i i rest _ e
      cases h
      rw [e, noAnswer_cons] at hq
      obtain ⟨h1, h2⟩ := exec_still k i s.c hq.1
      exact ⟨noAnswer_append.2 ⟨h1, hq.2⟩, h2⟩
  | call a =>
    dsimp only at h
    split at h <;> cases h
    have ha := hw a rfl
    refine ⟨noAnswer_cons.2 ⟨?_, hq⟩, [], by simp, hnone⟩
    cases a <;> simp [Writes] at ha <;> simp [Call.instr, Instr.answers]
  | ret =>
    dsimp only at h
    split at h
    · rename_i rest e
      cases h
      rw [e, noAnswer_cons] at hq
      exact ⟨hq.2, [], by simp, hnone⟩
    · cases h
  | recv bs =>
    dsimp only at h
    split at h
    · split at h <;> cases h
      exact ⟨hq, [.recv bs], rfl, by intro e he; cases List.mem_singleton.1 he; rfl⟩
    · cases h
  | bytesWritten k =>
    dsimp only at h
    split at h
    · split at h <;> cases h
      refine ⟨?_, [], by simp, hnone⟩
      dsimp only
      split
      · exact noAnswer_cons.2 ⟨rfl, hq⟩
      · exact hq
    · cases h
  | init =>
    dsimp only at h
    split at h <;> cases h
    refine ⟨hq, [.init], ?_, by intro e he; cases List.mem_singleton.1 he; rfl⟩
    simp only [Conn.initialize, Conn.emit, Conn.toReceivingHeaders]
    split <;> rfl
  | readParams =>
    dsimp only at h
    split at h <;> cases h
    exact ⟨hq, [], by simp only [Conn.requestParams]; split <;> simp, hnone⟩
  | setParam n v =>
    dsimp only at h
    split at h <;> cases h
    exact ⟨hq, [], by simp only [Conn.setRequestParam, Conn.requestParams]; split <;> simp, hnone⟩
  | readDecoded d =>
    dsimp only at h
    split at h <;> cases h
    refine ⟨hq, [], ?_, hnone⟩
    cases d <;> simp only [Conn.readDecoded] <;> split <;> simp

/-! ### the phases a pipe can see -/

/-- While the request is with the handler and nothing is written, only bytes arrive (or the response ends). -/
theorem busy_path {lo : Bool} {r : ReqView} {es : List Ev} {q : Phase} (h : Path lo (.busy r) es q) (hn : NotEnded es) (ho : NoOutput es) : OnlyRecv es ∧ q = .busy r := by
  generalize hp : Phase.busy r = p at h
  induction h with
  | nil => exact ⟨(by intro e he; cases he), rfl⟩
  | cons p x q e es h1 h2 ih =>
    subst hp
    have he := hn e (by simp)
    have ho' := ho e (by simp)
    cases h1 with
    | init p hp => rcases hp with hp | hp <;> cases hp
    | recv bs =>
      obtain ⟨k1, k2⟩ := ih (fun e he => hn e (by simp [he])) (fun e he => ho e (by simp [he])) rfl
      refine ⟨fun e he => ?_, k2⟩
      rcases List.mem_cons.1 he with rfl | he
      · exact ⟨_, rfl⟩
      · exact k1 e he
    | head r h hh => cases ho'
    | forced p u _ _ => exact absurd rfl (he.2 _ _)

theorem withHandler_busy {lo : Bool} {a : List Ev} {r : ReqView} {ph : Phase} (h : WithHandler a r) (hr : Runs lo a ph) : ph = .busy r := by
  obtain ⟨b, c, rfl, hc⟩ := h
  obtain ⟨q, h1, h2⟩ := runs_split hr
  cases h2 with
  | cons _ q1 _ _ _ n1 h3 =>
  cases n1 with
  | ready i r _ => exact path_onlyRecv h3 hc

theorem withHandler_readys {a : List Ev} {r : ReqView} (h : WithHandler a r) : (readys a).getLast? = some r := by
  obtain ⟨b, c, rfl, hc⟩ := h
  have : readys c = [] := by
    unfold readys
    rw [List.filterMap_eq_nil_iff]
    intro e he
    obtain ⟨bs, rfl⟩ := hc e he
    rfl
  unfold readys at this ⊢
  rw [List.filterMap_append, List.filterMap_cons]
  simp [Ev.request, this]

theorem withHandler_recv {a : List Ev} {r : ReqView} (h : WithHandler a r) {p : List Ev} (hp : OnlyRecv p) : WithHandler (a ++ p) r := by
  obtain ⟨b, c, rfl, hc⟩ := h
  refine ⟨b, c ++ p, by simp, fun e he => ?_⟩
  rcases List.mem_append.1 he with he | he
  · exact hc e he
  · exact hp e he

theorem busy_state {s : Conf} (h : Reach Proper s) (he : s.inEnv = true) (hf : s.c.fault = none) {r : ReqView} (hw : WithHandler s.c.log r) :
    s.c.st = .sendingHeaders ∧ s.c.req = r := by
  obtain ⟨ph, hr, hne, hph⟩ := reach_phase h he hf
  have hb := withHandler_busy hw hr
  subst hb
  rcases hph with ⟨hs, -⟩ | ⟨k, -⟩
  · cases hst : s.c.st with
    | uninitialized => rw [Settled, hst] at hs; simp at hs
    | receivingHeaders => have := (settled_recvH hst).1 hs; simp at this
    | receivingContent => obtain ⟨_, _, _, _, k, _⟩ := (settled_recvC hst).1 hs; cases k.phase
    | sendingHeaders =>
      obtain ⟨h1, -⟩ := (settled_sendH hst).1 hs
      injection h1 with h1
      exact ⟨rfl, h1.symm⟩
    | sendingContent => obtain ⟨_, _, k, _⟩ := (settled_sendC hst).1 hs; cases k
    | completed =>
      rw [Settled, hst] at hs
      obtain ⟨k, -⟩ := hs
      split at k <;> cases k
    | flushing => rw [Settled, hst] at hs; cases hs.1
    | closed => rw [Settled, hst] at hs; cases hs.1
  · cases k

theorem writeHeaders_call {s s' : Conf} (hr : Reach Proper s) (he : s.inEnv = true) (hf : s.c.fault = none) {r : ReqView} (hw : WithHandler s.c.log r) {status : Int} {hs : Headers} {k : Nat}
    (hrun : s.run [.call (.writeHeaders status hs), .tau k] = some s') (hf' : s'.c.fault = none) :
    ∃ h, s'.c.log = s.c.log ++ [.head h] ∧ HeadSpec r (-1) status hs h ∧ s'.stack = .sendContent :: s.stack := by
  obtain ⟨hst, rfl⟩ := busy_state hr he hf hw
  obtain ⟨ph, hruns, hne, hph⟩ := reach_phase hr he hf
  rcases hph with ⟨hset, hcore⟩ | ⟨-, e | ⟨e, -⟩⟩
  · obtain ⟨rfl, h2, h3, h4, h5, h6, h7⟩ := (settled_sendH hst).1 hset
    obtain ⟨d, hd⟩ := Option.isSome_iff_exists.1 (hcore.dev (by rw [hst]; simp) (by rw [hst]; simp))
    have hbuf : s.c.respBuf = [] := hcore.resp (inEnv_head he).2
    rw [run_call he hf] at hrun
    simp only [Call.instr, exec] at hrun
    unfold Conn.writeHeaders at hrun
    rw [if_neg (by simp [hst])] at hrun
    simp only [readView_valid h6, hbuf, h3, h4, h5] at hrun
    cases hh : buildHead [] (s.c.req.version == b!"HTTP/1.1") s.c.req (-1) false status hs with
    | none =>
      rw [hh] at hrun
      simp only [Conf.run, Option.some.injEq] at hrun
      subst hrun
      cases hf'
    | some h =>
      rw [hh] at hrun
      simp only [Conn.write, hd, Conf.run, Option.some.injEq] at hrun
      subst hrun
      exact ⟨h, rfl, head_spec hh, rfl⟩
  · rw [hst] at e; cases e
  · rw [hst] at e; cases e

theorem unavailable_call {s s' : Conf} (hr : Reach Proper s) (he : s.inEnv = true) (hf : s.c.fault = none) {r : ReqView} (hw : WithHandler s.c.log r) {status : Int} {k k' : Nat}
    (hrun : s.run [.call (.writeResponse status [] []), .tau k, .tau k'] = some s') (hf' : s'.c.fault = none) :
    ∃ h, s'.c.log = s.c.log ++ [.head h] ∧ HeadSpec r 0 status [] h ∧ s'.stack = .sendContent :: .writeResponseRest [] :: s.stack := by
  obtain ⟨hst, rfl⟩ := busy_state hr he hf hw
  obtain ⟨ph, hruns, hne, hph⟩ := reach_phase hr he hf
  rcases hph with ⟨hset, hcore⟩ | ⟨-, e | ⟨e, -⟩⟩
  · obtain ⟨rfl, h2, h3, h4, h5, h6, h7⟩ := (settled_sendH hst).1 hset
    obtain ⟨d, hd⟩ := Option.isSome_iff_exists.1 (hcore.dev (by rw [hst]; simp) (by rw [hst]; simp))
    have hbuf : s.c.respBuf = [] := hcore.resp (inEnv_head he).2
    rw [run_call he hf] at hrun
    have r1 : exec k (.writeResponse status [] []) s.c = ({ s.c with respLen := 0 }, [.writeHeaders status [], .writeResponseRest []]) := by
      simp [exec, Conn.writeResponse, hst]
    simp only [Call.instr] at hrun
    rw [r1] at hrun
    dsimp only [List.cons_append, List.nil_append] at hrun
    rw [run_tau (by simp) (by exact hf)] at hrun
    simp only [exec] at hrun
    unfold Conn.writeHeaders at hrun
    rw [if_neg (by simp [hst])] at hrun
    have rv : ({ s.c with respLen := 0 } : Conn).readView = { s.c with respLen := 0 } := by simp [Conn.readView, h6]
    rw [rv] at hrun
    simp only [hbuf, h3, h4] at hrun
    cases hh : buildHead [] (s.c.req.version == b!"HTTP/1.1") s.c.req 0 false status [] with
    | none =>
      rw [hh] at hrun
      simp only [Conf.run, Option.some.injEq] at hrun
      subst hrun
      cases hf'
    | some h =>
      rw [hh] at hrun
      simp only [Conn.write, hd, Conf.run, Option.some.injEq] at hrun
      subst hrun
      exact ⟨h, rfl, head_spec hh, rfl⟩
  · rw [hst] at e; cases e
  · rw [hst] at e; cases e

/-- `writeContent` while a response is being written. -/
theorem content_call {s s' : Conf} (hr : Reach Proper s) (he : s.inEnv = true) (hf : s.c.fault = none) {a b : List Ev} {h : RespHead} (e : s.c.log = a ++ .head h :: b) (hb : NotEnded b)
    {ct : Bytes} {k : Nat} (hrun : s.run [.call (.writeContent ct), .tau k] = some s') :
    (ct = [] ∨ (0 < h.len ∧ h.len < (contentOf b).length + ct.length)) ∧ s' = s ∨
    ct ≠ [] ∧ s'.c.log = s.c.log ++ [if h.chunked then .chunk ct else .body ct] ∧ (s'.stack = s.stack ∨ s'.stack = .completed :: s.stack ∧ 0 ≤ h.len) := by
  obtain ⟨h1, h2, h3, h4, h5, h6, h7, h8, -⟩ := writing_state hr he hf e hb
  rw [run_call he hf] at hrun
  simp only [Call.instr, exec, Conf.run, Option.some.injEq] at hrun
  by_cases hct : ct = []
  · left
    refine ⟨.inl hct, ?_⟩
    subst hct
    rw [← hrun]
    unfold Conn.writeContent
    rw [if_neg (by simp [h2]), if_neg (by rw [h3.len]; exact h4)]
    simp
  · by_cases hbig : 0 < h.len ∧ h.len < (contentOf b).length + ct.length
    · left
      refine ⟨.inr hbig, ?_⟩
      rw [← hrun]
      have : s.c.writeContent ct = (s.c, []) := by
        unfold Conn.writeContent
        rw [if_neg (by simp [h2]), if_neg (by rw [h3.len]; exact h4), if_pos (by rw [h3.len, h3.sent]; omega)]
      rw [this]
      rfl
    · right
      obtain ⟨d, hd⟩ := Option.isSome_iff_exists.1 h8
      rw [writeContent_writes h2 (by rw [h3.len]; exact h4) (by rw [h3.len, h3.sent]; omega) hct h7 h5 hd, h3.chunked] at hrun
      subst hrun
      refine ⟨hct, rfl, ?_⟩
      dsimp only
      split
      · rename_i hs
        refine .inr ⟨rfl, ?_⟩
        rw [← h3.len]
        omega
      · exact .inl rfl

theorem close_call {s s' : Conf} (he : s.inEnv = true) (hf : s.c.fault = none) (hst : s.c.st ≠ .closed) {k : Nat} (hrun : s.run [.call .close, .tau k] = some s') :
    ∃ u, s'.c.log = s.c.log ++ [.closed true u] := by
  rw [run_call he hf] at hrun
  simp only [Call.instr, exec, Conf.run, Option.some.injEq, Conn.toClosed] at hrun
  rw [if_neg hst] at hrun
  subst hrun
  exact ⟨_, rfl⟩

/-! ### responses of unknown length are not completed unless somebody ends them -/

theorem exec_completing (k : Nat) (i : Instr) (c : Conn) (hi : i ≠ .completed) (hna : Instr.answers i = false) :
    (.completed ∉ (exec k i c).2 ∨ i = .sendContent ∧ (c.respLen = 0 ∨ c.isHead = true)) ∧ .completed ∉ (exec k i c).1.log.drop c.log.length := by
  have hsame : ∀ {c' : Conn}, c'.log = c.log → Ev.completed ∉ c'.log.drop c.log.length := by
    intro c' h; rw [h]; simp
  have hone : ∀ {c' : Conn} {e : Ev}, c'.log = c.log ++ [e] → e ≠ .completed → Ev.completed ∉ c'.log.drop c.log.length := by
    intro c' e h he; rw [h, List.drop_left]; simpa using he.symm
  cases i with
  | writeContent ct => cases hna
  | writeResponse st hs ct => cases hna
  | writeHeaders st hs => cases hna
  | endContent => cases hna
  | completed => exact absurd rfl hi
  | writeResponseRest ct =>
    have : ct = [] := by simpa [Instr.answers] using hna
    subst this
    exact ⟨.inl (by simp [exec, Conn.writeResponseRest]), hsame (by simp [exec, Conn.writeResponseRest])⟩
  | env => exact ⟨.inl (by simp [exec]), hsame rfl⟩
  | processInput =>
    simp only [exec, Conn.processInput]
    repeat' split
    all_goals exact ⟨.inl (by simp), hsame (by simp [Conn.fill, Conn.parse])⟩
  | recvContent =>
    simp only [exec, Conn.recvContent]
    split
    · exact ⟨.inl (by simp), hsame rfl⟩
    split
    · exact ⟨.inl (by simp), hsame (by simp [Conn.setup])⟩
    split
    · exact ⟨.inl (by simp), hsame (by simp [Conn.setup])⟩
    split
    · split
      · generalize hc2 : ({ ({ c with st := CState.receivingContent } : Conn).setup with clen := _ } : Conn) = c2
        have hl : c2.log = c.log := by rw [← hc2]; simp [Conn.setup]
        rcases write_log c2 .interim with h | h
        · exact ⟨.inl (by simp), hsame (by dsimp only; rw [h, hl])⟩
        · exact ⟨.inl (by simp), hone (e := .interim) (by dsimp only; rw [h, hl]) (by simp)⟩
      · exact ⟨.inl (by simp), hsame (by simp [Conn.setup])⟩
    · exact ⟨.inl (by simp), hsame (by simp [Conn.setup])⟩
  | sendHeaders =>
    simp only [exec, Conn.sendHeaders]
    split
    · exact ⟨.inl (by simp), hsame rfl⟩
    · have key : ∀ (c2 : Conn) (r : ReqView), c2.log = c.log → (Instr.completed ∉ [Instr.env] ∨ Instr.sendHeaders = .sendContent ∧ (c.respLen = 0 ∨ c.isHead = true)) ∧ Ev.completed ∉ (c2.emit (.ready r)).log.drop c.log.length := fun c2 r h2 =>
        ⟨.inl (by simp), hone (e := .ready r) (by simp [Conn.emit, h2]) (by simp)⟩
      apply key
      split <;> rfl
  | sendContent =>
    simp only [exec, Conn.sendContent]
    split
    · exact ⟨.inl (by simp), hsame rfl⟩
    split
    · rename_i h
      exact ⟨.inr ⟨trivial, .inl h⟩, hsame rfl⟩
    · have hrv : (({ c with st := .sendingContent, respBuf := [] } : Conn).readView).log = c.log := by simp only [Conn.readView]; split <;> rfl
      split
      · rename_i h
        refine ⟨.inr ⟨trivial, .inr ?_⟩, hsame hrv⟩
        simp only [Conn.readView, Conn.isHead] at h ⊢
        split at h <;> exact h
      · exact ⟨.inl (by simp), hsame hrv⟩
  | sendContentRest =>
    simp only [exec, Conn.sendContentRest]
    exact ⟨.inl (by simp), hsame (by split <;> rfl)⟩
  | completedRest =>
    simp only [exec, Conn.completedRest]
    split <;> exact ⟨.inl (by simp), hsame rfl⟩
  | completedRest2 =>
    simp only [exec, Conn.completedRest2]
    exact ⟨.inl (by simp), hsame (by simp only [Conn.toReceivingHeaders]; split <;> rfl)⟩
  | flush =>
    simp only [exec, Conn.flush]
    repeat' split
    all_goals exact ⟨.inl (by simp), hsame rfl⟩
  | drain =>
    simp only [exec, Conn.drain]
    split <;> exact ⟨.inl (by simp), hsame rfl⟩
  | drainRest =>
    simp only [exec, Conn.drainRest]
    repeat' split
    all_goals exact ⟨.inl (by simp), hsame rfl⟩
  | flushing =>
    simp only [exec, Conn.toFlushing]
    split <;> exact ⟨.inl (by simp), hsame rfl⟩
  | flushingRest =>
    simp only [exec, Conn.flushingRest]
    repeat' split
    all_goals exact ⟨.inl (by simp), hsame rfl⟩
  | closed forced =>
    simp only [exec, Conn.toClosed]
    split
    · exact ⟨.inl (by simp), hsame rfl⟩
    · exact ⟨.inl (by simp), hone rfl (by simp)⟩
  | closedRest => exact ⟨.inl (by simp [exec, Conn.closedRest]), hsame rfl⟩
  | errorResponse code =>
    simp only [exec, Conn.errorResponse]
    split
    · exact ⟨.inl (by simp), hsame rfl⟩
    · rcases write_log c (.errorReply code) with h | h
      · exact ⟨.inl (by simp), hsame h⟩
      · exact ⟨.inl (by simp), hone h (by simp)⟩

/-- The connection is about to enter `SendingContent` for a response of unknown length to a request that is not a HEAD. -/
theorem sendContent_open {s : Conf} (hr : Reach Proper s) (hf : s.c.fault = none) {rest : List Instr} (hst : s.stack = .sendContent :: rest) {a b : List Ev} {h : RespHead} {r : ReqView}
    (e : s.c.log = a ++ .head h :: b) (hb : NotEnded b) (hreq : (readys a).getLast? = some r) (hl : h.len < 0) (hm : r.method ≠ b!"HEAD") :
    s.c.respLen ≠ 0 ∧ s.c.isHead = false := by
  obtain ⟨-, ph0, hruns⟩ := reach_log hr
  obtain ⟨r', h1, -, -, h4⟩ := head_split hruns e
  rw [hreq, Option.some.injEq] at h1
  subst h1
  obtain ⟨-, hq⟩ := writing_path r h b h4 hb
  rcases linv_reach hr with hc | hc | hc
  · obtain ⟨ph, k1, k2⟩ := hc.data
    have := runs_det k1 hruns
    subst this
    rw [hst] at k2
    obtain ⟨-, -, -, h', k3, k4⟩ := k2
    split at k4
    · rename_i hor
      rcases hq with ⟨rfl, -⟩ | ⟨rfl, -⟩
      · cases k4
      · injection k4 with k5 k6
        subst k5 k6
        rcases hor with hor | hor
        · omega
        · exact absurd hor hm
    · rename_i hor
      rcases hq with ⟨rfl, -⟩ | ⟨rfl, -⟩
      · injection k4 with k5 k6 k7
        subst k5 k6
        refine ⟨by rw [k3.len]; omega, ?_⟩
        simpa [Conn.isHead] using hm
      · cases k4
  · exfalso
    rw [hst] at hc
    generalize hS : Instr.sendContent :: rest = st at hc
    cases hc with
    | z0 => cases hS
    | z1 _ n x _ _ _ hbn => rw [← hS] at hbn; have := hbn .sendContent (by simp); cases this
    | zf => cases hS
    | z2 _ _ _ _ _ hbn => rw [← hS] at hbn; have := hbn .sendContent (by simp); cases this
    | zp => cases hS
  · rw [Dead, hf] at hc; cases hc.1

/-- The connection does not complete such a response by itself. -/
theorem open_step {s s' : Conf} {l : Label} (hr : Reach Proper s) (hq : NoAnswer s.stack) (hw : ∀ c, l = .call c → ¬ Writes c) (hs : s.step l = some s') {a b : List Ev} {h : RespHead} {r : ReqView}
    (e : s.c.log = a ++ .head h :: b) (hb : NotEnded b) (hreq : (readys a).getLast? = some r) (hl : h.len < 0) (hm : r.method ≠ b!"HEAD") (hnc : .completed ∉ s.stack) :
    .completed ∉ s'.stack ∧ .completed ∉ s'.c.log.drop s.c.log.length := by
  have hf : s.c.fault = none := by
    cases hf : s.c.fault with
    | none => rfl
    | some f => unfold Conf.step at hs; simp [hf] at hs
  have hsame : s'.c.log = s.c.log → Ev.completed ∉ s'.c.log.drop s.c.log.length := by
    intro h; rw [h]; simp
  unfold Conf.step at hs
  split at hs
  · cases hs
  cases l with
  | tau k =>
    dsimp only at hs
    split at hs
    · cases hs
    · cases hs
    · rename_i i rest _ est
      cases hs
      rw [est] at hnc hq
      have hi : i ≠ .completed := fun h => hnc (by simp [h])
      obtain ⟨h1, h2⟩ := exec_completing k i s.c hi (noAnswer_cons.1 hq).1
      refine ⟨fun hm' => ?_, h2⟩
      rcases List.mem_append.1 hm' with hm' | hm'
      · rcases h1 with h1 | ⟨rfl, h1⟩
        · exact h1 hm'
        · obtain ⟨k1, k2⟩ := sendContent_open hr hf est e hb hreq hl hm
          rcases h1 with h1 | h1
          · exact k1 h1
          · rw [k2] at h1; cases h1
      · exact hnc (by simp [hm'])
  | call c =>
    dsimp only at hs
    split at hs <;> cases hs
    have hc := hw c rfl
    refine ⟨fun hm' => ?_, hsame rfl⟩
    rcases List.mem_cons.1 hm' with hm' | hm'
    · cases c <;> cases hm'
    · exact hnc hm'
  | ret =>
    dsimp only at hs
    split at hs
    · rename_i rest est
      cases hs
      rw [est] at hnc
      exact ⟨fun hm' => hnc (by simp [hm']), hsame rfl⟩
    · cases hs
  | recv bs =>
    dsimp only at hs
    split at hs
    · split at hs <;> cases hs
      refine ⟨hnc, ?_⟩
      show Ev.completed ∉ (s.c.log ++ [Ev.recv bs]).drop s.c.log.length
      rw [List.drop_left]; simp
    · cases hs
  | bytesWritten k =>
    dsimp only at hs
    split at hs
    · split at hs <;> cases hs
      refine ⟨?_, hsame rfl⟩
      dsimp only
      split
      · intro hm'
        rcases List.mem_cons.1 hm' with hm' | hm'
        · cases hm'
        · exact hnc hm'
      · exact hnc
    · cases hs
  | init =>
    dsimp only at hs
    split at hs <;> cases hs
    refine ⟨hnc, ?_⟩
    have : s.c.initialize.log = s.c.log ++ [.init] := by
      simp only [Conn.initialize, Conn.emit, Conn.toReceivingHeaders]
      split <;> rfl
    dsimp only
    rw [this, List.drop_left]; simp
  | readParams =>
    dsimp only at hs
    split at hs <;> cases hs
    exact ⟨hnc, hsame (by simp only [Conn.requestParams]; split <;> rfl)⟩
  | setParam n v =>
    dsimp only at hs
    split at hs <;> cases hs
    exact ⟨hnc, hsame (by simp only [Conn.setRequestParam, Conn.requestParams]; split <;> rfl)⟩
  | readDecoded d =>
    dsimp only at hs
    split at hs <;> cases hs
    exact ⟨hnc, hsame (by cases d <;> simp only [Conn.readDecoded] <;> split <;> rfl)⟩

/-- While foreign code is in control no `transitionToCompleted` is pending. -/
theorem env_not_completed {s : Conf} (hr : Reach Proper s) (he : s.inEnv = true) (hf : s.c.fault = none) : .completed ∉ s.stack := by
  have hfr : ∀ i ∈ s.stack, i.frame = true := by
    rcases linv_reach hr with h | h | h
    · exact inEnv_frames he h
    · rcases zombie_env he h with ⟨n, x, -, -, z, -⟩ | ⟨-, -, -, z, -⟩ <;> exact z
    · rw [Dead, hf] at h; cases h.1
  intro h
  have := hfr _ h
  cases this

end Pillow.Props
