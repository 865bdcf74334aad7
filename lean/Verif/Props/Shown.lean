import Verif.Model.HttpConnection
import Verif.Props.LogEntry
import Verif.Props.Exact
import Verif.Lemmas.Depth
set_option linter.unusedSimpArgs false
set_option linter.unusedVariables false
/-!
# C96: `responseStatusCode()` and `responseContentLength()` tell what was put on the wire
-/
namespace Pillow.Props
open Pillow Pillow.Spec

namespace Shown

/-- The head of the response to the request handed out last. -/
def upd (o : Option RespHead) : Ev → Option RespHead
  | .ready _ => none
  | .head h => some h
  | _ => o

def begun (log : List Ev) : Option RespHead := log.foldl upd none

theorem begun_snoc (log : List Ev) (e : Ev) : begun (log ++ [e]) = upd (begun log) e := by unfold begun; rw [List.foldl_append]; rfl

theorem begun_split {a b : List Ev} {h : RespHead} (hb : ∀ e ∈ b, (∀ r, e ≠ .ready r) ∧ ∀ h, e ≠ .head h) : begun (a ++ .head h :: b) = some h := by
  have key : ∀ (b : List Ev) (o : Option RespHead), (∀ e ∈ b, (∀ r, e ≠ .ready r) ∧ ∀ h, e ≠ .head h) → b.foldl upd o = o := by
    intro b
    induction b with
    | nil => intro o _; rfl
    | cons e b ih =>
      intro o hb
      have h1 := hb e (by simp)
      rw [List.foldl_cons, ih _ (fun x hx => hb x (by simp [hx]))]
      cases e <;> first | rfl | exact absurd rfl (h1.1 _) | exact absurd rfl (h1.2 _)
  unfold begun
  rw [List.foldl_append, List.foldl_cons]
  exact key b _ hb

structure J (s : Conf) : Prop where
  shown : ∀ h, begun s.c.log = some h → s.c.respLen = h.len
  fresh : s.c.st = .sendingHeaders → begun s.c.log = none ∨ ∃ rest, s.stack = .sendContent :: rest

/-- Instructions that do not begin a response. -/
theorem exec_len (k : Nat) (i : Instr) (c : Conn) (h1 : ∀ st hs, i ≠ .writeHeaders st hs) (h2 : i ≠ .sendHeaders) (h3 : ∀ st hs ct, i ≠ .writeResponse st hs ct) (h4 : i ≠ .sendContent) :
    (exec k i c).1.respLen = c.respLen ∧ ((exec k i c).1.st = .sendingHeaders → c.st = .sendingHeaders) := by
  have hw : ∀ (c : Conn) (e : Ev), (c.write e).respLen = c.respLen ∧ (c.write e).st = c.st := fun c e => by unfold Conn.write; split <;> exact ⟨rfl, rfl⟩
  have hr : ∀ c : Conn, c.readView.respLen = c.respLen ∧ c.readView.st = c.st := fun c => by unfold Conn.readView; split <;> exact ⟨rfl, rfl⟩
  cases i <;> show _ ∧ _ <;> dsimp only [exec]
  case writeHeaders st hs => exact absurd rfl (h1 st hs)
  case sendHeaders => exact absurd rfl h2
  case writeResponse st hs ct => exact absurd rfl (h3 st hs ct)
  case sendContent => exact absurd rfl h4
  case env => exact ⟨rfl, id⟩
  case processInput =>
    unfold Conn.processInput; dsimp only; repeat' split
    all_goals exact ⟨rfl, id⟩
  case recvContent =>
    unfold Conn.recvContent
    dsimp only
    repeat' split
    all_goals first | exact ⟨rfl, id⟩ | exact ⟨rfl, fun e => nomatch e⟩ | exact ⟨(hw _ _).1, fun e => absurd ((hw _ _).2.symm.trans e) (by simp [Conn.setup])⟩
  case sendContentRest => unfold Conn.sendContentRest; dsimp only; split <;> exact ⟨rfl, id⟩
  case completed =>
    unfold Conn.complete; split
    · exact ⟨rfl, id⟩
    · exact ⟨rfl, fun e => nomatch e⟩
  case completedRest => unfold Conn.completedRest; dsimp only; split <;> exact ⟨rfl, id⟩
  case completedRest2 =>
    unfold Conn.completedRest2 Conn.toReceivingHeaders; dsimp only; split
    · exact ⟨rfl, id⟩
    · exact ⟨rfl, fun e => nomatch e⟩
  case flush => unfold Conn.flush; repeat' split
                all_goals exact ⟨rfl, id⟩
  case drain => unfold Conn.drain; split <;> exact ⟨rfl, id⟩
  case drainRest => unfold Conn.drainRest; repeat' split
                    all_goals exact ⟨rfl, id⟩
  case flushing =>
    unfold Conn.toFlushing; split
    · exact ⟨rfl, id⟩
    · exact ⟨rfl, fun e => nomatch e⟩
  case flushingRest => unfold Conn.flushingRest; repeat' split
                       all_goals exact ⟨rfl, id⟩
  case closed =>
    unfold Conn.toClosed; split
    · exact ⟨rfl, id⟩
    · exact ⟨rfl, fun e => nomatch e⟩
  case closedRest => exact ⟨rfl, id⟩
  case errorResponse code =>
    unfold Conn.errorResponse; split
    · exact ⟨rfl, id⟩
    · exact ⟨(hw _ _).1, fun e => (hw _ _).2.symm.trans e⟩
  case writeResponseRest =>
    unfold Conn.writeResponseRest; dsimp only; repeat' split
    all_goals first | exact ⟨rfl, id⟩ | exact ⟨(hr _).1, fun e => (hr _).2.symm.trans e⟩
  case writeContent ct =>
    unfold Conn.writeContent
    split
    · exact ⟨rfl, id⟩
    · split
      · exact ⟨rfl, id⟩
      · split
        · exact ⟨rfl, id⟩
        · split
          · dsimp only
            split
            · exact ⟨(hr _).1, fun e => (hr _).2.symm.trans e⟩
            · have hh : ∀ e, (Conn.write { c.readView with sent := c.readView.sent + ct.length } e).respLen = c.respLen ∧
                  ((Conn.write { c.readView with sent := c.readView.sent + ct.length } e).st = .sendingHeaders → c.st = .sendingHeaders) :=
                fun e => ⟨(hw _ _).1.trans (hr _).1, fun g => ((hw { c.readView with sent := c.readView.sent + ct.length } e).2.trans (hr c).2).symm.trans g⟩
              repeat' split
              all_goals exact hh _
          · exact ⟨rfl, id⟩
  case endContent =>
    unfold Conn.endContent
    dsimp only
    repeat' split
    all_goals first | exact ⟨rfl, id⟩ | exact ⟨(hw _ _).1, fun e => (hw _ _).2.symm.trans e⟩

theorem exec_j {k : Nat} {i : Instr} {c : Conn} {rest : List Instr} (hf : (exec k i c).1.fault = none) (h : J ⟨c, i :: rest⟩) : J ⟨(exec k i c).1, (exec k i c).2 ++ rest⟩ := by
  obtain ⟨h1, h2⟩ := h
  have h1 : ∀ h, begun c.log = some h → c.respLen = h.len := h1
  have h2 : c.st = .sendingHeaders → begun c.log = none ∨ ∃ rest', i :: rest = .sendContent :: rest' := h2
  by_cases hi : (∀ st hs, i ≠ .writeHeaders st hs) ∧ i ≠ .sendHeaders ∧ (∀ st hs ct, i ≠ .writeResponse st hs ct) ∧ i ≠ .sendContent
  · obtain ⟨a1, a2, a3, a4⟩ := hi
    obtain ⟨b1, b2⟩ := exec_len k i c a1 a2 a3 a4
    have hl : begun (exec k i c).1.log = begun c.log ∨ begun (exec k i c).1.log = none := by
      rcases exec_log k i c with e | ⟨ev, e, g⟩
      · rw [e]; exact .inl rfl
      · rw [e, begun_snoc]
        cases ev with
        | head h' => obtain ⟨st, hs, e', -⟩ := g; exact absurd e' (a1 st hs)
        | ready r => exact .inr rfl
        | _ => exact .inl rfl
    refine ⟨fun h hh => ?_, fun hst => ?_⟩
    · have hh : begun (exec k i c).1.log = some h := hh
      show (exec k i c).1.respLen = _
      rw [b1]
      rcases hl with e | e
      · rw [e] at hh; exact h1 h hh
      · rw [e] at hh; cases hh
    · left
      show begun (exec k i c).1.log = none
      rcases hl with e | e
      · rw [e]
        rcases h2 (b2 hst) with e' | ⟨r', e'⟩
        · exact e'
        · cases e'; exact absurd rfl a4
      · exact e
  · cases i
    case writeHeaders st hs =>
      revert hf
      simp only [exec]
      unfold Conn.writeHeaders
      split
      · rename_i hst
        intro _; exact ⟨h1, fun e => absurd e hst⟩
      · dsimp only
        split
        · intro hf; cases hf
        · rename_i hd he
          dsimp only
          unfold Conn.write
          dsimp only
          split
          · intro hf; cases hf
          · intro _
            refine ⟨fun h hh => ?_, fun _ => .inr ⟨_, rfl⟩⟩
            have hh : begun (c.readView.log ++ [.head hd]) = some h := hh
            rw [begun_snoc] at hh
            cases hh
            rfl
    case sendHeaders =>
      simp only [exec]
      unfold Conn.sendHeaders
      split
      · refine ⟨h1, fun e => .inl ?_⟩
        rcases h2 e with e' | ⟨r', e'⟩
        · exact e'
        · cases e'
      · dsimp only
        have : ∀ (x : Conn) (r : ReqView), begun (x.emit (.ready r)).log = none := fun x r => by show begun (x.log ++ [.ready r]) = none; rw [begun_snoc]; rfl
        split
        · exact ⟨fun h hh => (by have hh : begun (Conn.emit _ (.ready _)).log = some h := hh; rw [this] at hh; cases hh), fun _ => .inl (this _ _)⟩
        · exact ⟨fun h hh => (by have hh : begun (Conn.emit _ (.ready _)).log = some h := hh; rw [this] at hh; cases hh), fun _ => .inl (this _ _)⟩
    case writeResponse st hs ct =>
      simp only [exec]
      unfold Conn.writeResponse
      split
      · rename_i hst; exact ⟨h1, fun e => absurd e hst⟩
      · rename_i hst
        have hst : c.st = .sendingHeaders := Classical.byContradiction hst
        have hn : begun c.log = none := by
          rcases h2 hst with e' | ⟨r', e'⟩
          · exact e'
          · cases e'
        exact ⟨fun h hh => (by have hh : begun c.log = some h := hh; rw [hn] at hh; cases hh), fun _ => .inl hn⟩
    case sendContent =>
      simp only [exec]
      unfold Conn.sendContent
      split
      · rename_i hst; exact ⟨h1, fun e => (by have e : c.st = .sendingHeaders := e; rw [hst] at e; cases e)⟩
      · dsimp only
        have hr : ∀ c : Conn, c.readView.respLen = c.respLen ∧ c.readView.st = c.st ∧ c.readView.log = c.log := fun c => by unfold Conn.readView; split <;> exact ⟨rfl, rfl, rfl⟩
        split
        · exact ⟨h1, fun e => nomatch e⟩
        · have hq := hr { c with st := .sendingContent, respBuf := [] }
          have hJ : ∀ l, J ⟨Conn.readView { c with st := .sendingContent, respBuf := [] }, l⟩ := fun l =>
            ⟨fun h hh => by
              have hh : begun (Conn.readView { c with st := .sendingContent, respBuf := [] }).log = some h := hh
              rw [hq.2.2] at hh
              exact hq.1.trans (h1 h hh), fun e => by
              have e : (Conn.readView { c with st := .sendingContent, respBuf := [] }).st = .sendingHeaders := e
              rw [hq.2.1] at e; cases e⟩
          split <;> exact hJ _
    all_goals exact absurd ⟨by simp, by simp, by simp, by simp⟩ hi

theorem J.same {s s' : Conf} (h : J s) (h0 : s.inEnv = true) (h1 : s'.c.respLen = s.c.respLen) (h2 : begun s'.c.log = begun s.c.log) (h3 : s'.c.st = .sendingHeaders → s.c.st = .sendingHeaders) : J s' := by
  refine ⟨fun h' hh => by rw [h1]; exact h.shown h' (h2 ▸ hh), fun e => ?_⟩
  rcases h.fresh (h3 e) with e' | ⟨r, e'⟩
  · exact .inl (h2.trans e')
  · unfold Conf.inEnv at h0; rw [e'] at h0; simp at h0

theorem j_reach {allowed : Conf → Label → Prop} {s : Conf} (h : Reach allowed s) (hf : s.c.fault = none) : J s := by
  induction h with
  | start => exact ⟨fun h hh => (by cases hh), fun e => nomatch e⟩
  | step s s' l _ _ hs ih =>
    have hf0 : s.c.fault = none := by
      unfold Conf.step at hs
      split at hs
      · cases hs
      · rename_i g; simpa using g
    have ih := ih hf0
    cases l with
    | tau k =>
      obtain ⟨i, rest, e1, e2, rfl⟩ := Pillow.Depth.step_tau hs
      have : J ⟨s.c, i :: rest⟩ := by rw [← e1]; exact ih
      exact exec_j hf this
    | ret =>
      obtain ⟨rest, e1, rfl⟩ := Pillow.Depth.step_ret hs
      exact ih.same (by unfold Conf.inEnv; rw [e1]) rfl rfl id
    | call a =>
      unfold Conf.step at hs; rw [if_neg (by rw [hf0]; simp)] at hs; dsimp only at hs
      split at hs
      · rename_i he; cases hs; exact ih.same he rfl rfl id
      · cases hs
    | recv bs =>
      unfold Conf.step at hs; rw [if_neg (by rw [hf0]; simp)] at hs; dsimp only at hs
      split at hs
      · rename_i he
        split at hs
        · cases hs
          refine ih.same he rfl ?_ id
          show begun (s.c.log ++ [.recv bs]) = _
          rw [begun_snoc]; rfl
        · cases hs
      · cases hs
    | bytesWritten k =>
      unfold Conf.step at hs; rw [if_neg (by rw [hf0]; simp)] at hs; dsimp only at hs
      split at hs
      · rename_i he
        split at hs
        · cases hs; exact ih.same he rfl rfl id
        · cases hs
      · cases hs
    | init =>
      unfold Conf.step at hs; rw [if_neg (by rw [hf0]; simp)] at hs; dsimp only at hs
      split at hs
      · rename_i he
        cases hs
        have e1 : s.c.initialize.log = s.c.log ++ [.init] := by
          unfold Conn.initialize Conn.toReceivingHeaders Conn.emit; dsimp only; split <;> rfl
        refine ih.same he ?_ ?_ ?_
        · unfold Conn.initialize Conn.toReceivingHeaders Conn.emit; dsimp only; split <;> rfl
        · show begun s.c.initialize.log = _
          rw [e1, begun_snoc]; rfl
        · unfold Conn.initialize Conn.toReceivingHeaders Conn.emit; dsimp only; split
          · exact id
          · exact fun e => nomatch e
      · cases hs
    | readParams =>
      unfold Conf.step at hs; rw [if_neg (by rw [hf0]; simp)] at hs; dsimp only at hs
      split at hs
      · rename_i he; cases hs
        have : s.c.requestParams.respLen = s.c.respLen ∧ s.c.requestParams.log = s.c.log ∧ s.c.requestParams.st = s.c.st := by unfold Conn.requestParams; split <;> exact ⟨rfl, rfl, rfl⟩
        exact ih.same he this.1 (congrArg begun this.2.1) (fun e => this.2.2.symm.trans e)
      · cases hs
    | setParam n v =>
      unfold Conf.step at hs; rw [if_neg (by rw [hf0]; simp)] at hs; dsimp only at hs
      split at hs
      · rename_i he; cases hs
        have : (s.c.setRequestParam n v).respLen = s.c.respLen ∧ (s.c.setRequestParam n v).log = s.c.log ∧ (s.c.setRequestParam n v).st = s.c.st := by
          unfold Conn.setRequestParam Conn.requestParams; dsimp only; split <;> exact ⟨rfl, rfl, rfl⟩
        exact ih.same he this.1 (congrArg begun this.2.1) (fun e => this.2.2.symm.trans e)
      · cases hs
    | readDecoded d =>
      unfold Conf.step at hs; rw [if_neg (by rw [hf0]; simp)] at hs; dsimp only at hs
      split at hs
      · rename_i he; cases hs
        have : (s.c.readDecoded d).respLen = s.c.respLen ∧ (s.c.readDecoded d).log = s.c.log ∧ (s.c.readDecoded d).st = s.c.st := by
          cases d <;> unfold Conn.readDecoded <;> dsimp only <;> split <;> exact ⟨rfl, rfl, rfl⟩
        exact ih.same he this.1 (congrArg begun this.2.1) (fun e => this.2.2.symm.trans e)
      · cases hs

end Shown

/-- **C96.** Whatever foreign code does, from the time the head of a response has been sent until the next request is handed out: `responseStatusCode()` is the status and
`responseContentLength()` the length of that head (-1 if it has none). -/
theorem C96_shown {allowed : Conf → Label → Prop} {s : Conf} (hr : Reach allowed s) (hf : s.c.fault = none) {a b : List Ev} {h : RespHead} (e : s.c.log = a ++ .head h :: b)
    (hb : ∀ x ∈ b, (∀ r, x ≠ .ready r) ∧ ∀ h, x ≠ .head h) : s.c.status = h.status ∧ s.c.respLen = h.len := by
  refine ⟨status_reach hr hf h ?_, (Shown.j_reach hr hf).shown h (by rw [e]; exact Shown.begun_split hb)⟩
  have hb0 : heads b = [] := by
    unfold heads
    rw [List.filterMap_eq_nil_iff]
    intro x hx
    cases x <;> first | rfl | exact absurd rfl ((hb _ hx).2 _)
  rw [e]
  have : heads (a ++ .head h :: b) = heads a ++ h :: heads b := by unfold heads; rw [List.filterMap_append]; rfl
  rw [this, hb0]
  simp

/-- **C96, on the wire.** For an application that obeys the rules of the other theorems about responses: what was sent is a status line with the code `responseStatusCode()` and, unless
`responseContentLength()` is -1, the line `Content-Length` with that length, without leading zeros; proved for the 41 codes of the standard and lengths in the range of `int`. -/
theorem C96_wire_partial {s : Conf} (hr : Reach Proper s) (hf : s.c.fault = none) {a b : List Ev} {h : RespHead} (e : s.c.log = a ++ .head h :: b)
    (hb : ∀ x ∈ b, (∀ r, x ≠ .ready r) ∧ ∀ h, x ≠ .head h) (hst : s.c.status ∈ rfcCodes) (hl : -2147483648 < s.c.respLen ∧ s.c.respLen < 2147483648) :
    ∃ version code reason others len rest, code.length = 3 ∧ readInt 10 code = some s.c.status ∧ readInt 10 len = some s.c.respLen ∧ Canonical len ∧
      (.head h : Ev).wire = version ++ b!" " ++ code ++ b!" " ++ reason ++ b!"\r\n" ++ others ++ (if s.c.respLen = -1 then [] else b!"Content-Length: " ++ len ++ b!"\r\n") ++ rest := by
  obtain ⟨e1, e2⟩ := C96_shown hr hf e hb
  obtain ⟨-, ph, hruns⟩ := reach_log hr
  obtain ⟨r, hreq, -, -⟩ := head_split hruns e
  rw [e1] at hst ⊢
  rw [e2] at hl ⊢
  obtain ⟨code, reason, len, c1, c2, c3, c4, c5, c6⟩ := C23_layout_partial s hr a b h e r hreq hst hl
  refine ⟨r.version, code, reason, otherLines h.headers, len, typeHeader h.headers h.len ++ connectionHeader r h.keepAlive ++ encodingHeader h.headers h.chunked ++ b!"\r\n", c1, c2, c4, c5, ?_⟩
  show h.bytes = _
  rw [c6]
  simp only [List.append_assoc]

/-- C96 is false of the code for lengths from 2 GiB on: the connection shows 4294967301, the client is told 5. -/
theorem C96_length_violation : ∃ s, Reach Gentle s ∧ s.inEnv = true ∧ s.c.fault = none ∧ s.c.respLen = 4294967301 ∧
    ∃ h, Ev.head h ∈ s.c.log ∧ h.bytes = b!"HTTP/1.1 200 OK\r\nContent-Length: 5\r\nContent-Type: text/plain\r\n\r\n" := by
  obtain ⟨t, h1, h2⟩ := exists_of_endsIn (allowed := Gentle) (ls := headRun 200 [⟨b!"Content-Length", b!"4294967301"⟩])
    (p := fun s => s.inEnv && s.c.fault.isNone && s.c.respLen == 4294967301 && s.c.log.any fun e => match e with
      | .head h => h.bytes == b!"HTTP/1.1 200 OK\r\nContent-Length: 5\r\nContent-Type: text/plain\r\n\r\n"
      | _ => false) (by decide +kernel)
  simp only [Bool.and_eq_true, beq_iff_eq, Option.isNone_iff_eq_none] at h2
  obtain ⟨⟨⟨g1, g2⟩, g3⟩, h2⟩ := h2
  rw [List.any_eq_true] at h2
  obtain ⟨e, h3, h4⟩ := h2
  split at h4
  · rename_i h
    exact ⟨t, h1, g1, g2, g3, h, h3, by simpa using h4⟩
  · cases h4

/-- … and for codes that are not in the table: the connection shows 299, the client is told none. -/
theorem C96_status_violation : ∃ s, Reach Gentle s ∧ s.inEnv = true ∧ s.c.fault = none ∧ s.c.status = 299 ∧
    ∃ h, Ev.head h ∈ s.c.log ∧ b!"HTTP/1.1 Internal Server Error\r\n" <+: h.bytes := by
  obtain ⟨t, h1, h2⟩ := exists_of_endsIn (allowed := Gentle) (ls := headRun 299 [])
    (p := fun s => s.inEnv && s.c.fault.isNone && s.c.status == 299 && s.c.log.any fun e => match e with
      | .head h => b!"HTTP/1.1 Internal Server Error\r\n".isPrefixOf h.bytes
      | _ => false) (by decide +kernel)
  simp only [Bool.and_eq_true, beq_iff_eq, Option.isNone_iff_eq_none] at h2
  obtain ⟨⟨⟨g1, g2⟩, g3⟩, h2⟩ := h2
  rw [List.any_eq_true] at h2
  obtain ⟨e, h3, h4⟩ := h2
  split at h4
  · rename_i h
    exact ⟨t, h1, g1, g2, g3, h, h3, List.isPrefixOf_iff_prefix.1 h4⟩
  · cases h4

/-- The hypotheses of the theorems are met: a response of 12 bytes with the code 404 is begun, and part of its content is written. -/
theorem C96_example : ∃ s, Reach Gentle s ∧ s.inEnv = true ∧ s.c.fault = none ∧ s.c.status = 404 ∧ s.c.respLen = 12 ∧ ∃ a h b, s.c.log = a ++ .head h :: b ∧ b = [.body b!"abc"] := by
  obtain ⟨t, h1, h2⟩ := exists_of_endsIn (allowed := Gentle) (ls := headRun 404 [⟨b!"Content-Length", b!"12"⟩] ++ [.call (.writeContent b!"abc"), .tau 0])
    (p := fun s => s.inEnv && s.c.fault.isNone && s.c.status == 404 && s.c.respLen == 12 && (match s.c.log.reverse with | .body bs :: .head _ :: _ => bs == b!"abc" | _ => false)) (by decide +kernel)
  simp only [Bool.and_eq_true, beq_iff_eq, Option.isNone_iff_eq_none] at h2
  obtain ⟨⟨⟨⟨g1, g2⟩, g3⟩, g4⟩, h2⟩ := h2
  split at h2
  · rename_i bs h l e
    refine ⟨t, h1, g1, g2, g3, g4, l.reverse, h, [.body bs], ?_, by rw [eq_of_beq h2]⟩
    rw [← List.reverse_reverse t.c.log, e]
    simp
  · cases h2

end Pillow.Props
