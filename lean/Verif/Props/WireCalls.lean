import Verif.Spec.WireCalls
import Verif.Props.Wire
import Verif.Props.Download
import Verif.Props.Live
import Verif.Props.Handlers
import Verif.Lemmas.Depth
set_option linter.unusedSimpArgs false
set_option linter.unusedVariables false
/-!
# C99, in terms of the calls of the handler
-/
namespace Pillow.Props
open Pillow Pillow.Spec

namespace WireCalls

/-- An instruction that is not the beginning of a response. -/
def Deep : Instr → Prop
  | .writeHeaders _ _ => False
  | .writeResponse _ _ _ => False
  | .writeResponseRest ct => ct.length < 2147483648
  | .writeContent ct => ct.length < 2147483648
  | _ => True

def Top (c : Conn) : Instr → Prop
  | .writeHeaders st hs => c.st = .sendingHeaders → HeadArgs st hs (declaredLength c.respLen hs)
  | .writeResponse st hs ct => HeadArgs st hs (declaredLength ct.length hs) ∧ ct.length < 2147483648
  | i => Deep i

def Stack (c : Conn) : List Instr → Prop
  | [] => True
  | i :: rest => Top c i ∧ ∀ j ∈ rest, Deep j

def Logged (log : List Ev) : Prop := (∀ h, .head h ∈ log → HeadArgs h.status h.headers h.len) ∧ ∀ bs, .chunk bs ∈ log → bs.length < 2147483648

theorem deep_top {c : Conn} {i : Instr} (h : Deep i) : Top c i := by cases i <;> first | exact h | exact h.elim

theorem stack_deep {c : Conn} {l : List Instr} (h : ∀ i ∈ l, Deep i) : Stack c l := by
  cases l with
  | nil => trivial
  | cons i rest => exact ⟨deep_top (h i (by simp)), fun j hj => h j (by simp [hj])⟩

/-- What an instruction leads to. -/
theorem exec_deep (k : Nat) (i : Instr) (c : Conn) (h : Top c i) (h1 : ∀ st hs ct, i ≠ .writeResponse st hs ct) : ∀ j ∈ (exec k i c).2, Deep j := by
  cases i <;> dsimp only [exec]
  case writeResponse st hs ct => exact absurd rfl (h1 st hs ct)
  case env => simp
  case processInput => unfold Conn.processInput; dsimp only; repeat' split
                       all_goals simp [Deep]
  case recvContent => unfold Conn.recvContent; dsimp only; repeat' split
                      all_goals simp [Deep]
  case sendHeaders => unfold Conn.sendHeaders; dsimp only; repeat' split
                      all_goals simp [Deep]
  case sendContent => unfold Conn.sendContent; dsimp only; repeat' split
                      all_goals simp [Deep]
  case sendContentRest => unfold Conn.sendContentRest; simp
  case completed => unfold Conn.complete; repeat' split
                    all_goals simp [Deep]
  case completedRest => unfold Conn.completedRest; dsimp only; repeat' split
                        all_goals simp [Deep]
  case completedRest2 => unfold Conn.completedRest2; simp [Deep]
  case flush => unfold Conn.flush; repeat' split
                all_goals simp [Deep]
  case drain => unfold Conn.drain; repeat' split
                all_goals simp [Deep]
  case drainRest => unfold Conn.drainRest; repeat' split
                    all_goals simp [Deep]
  case flushing => unfold Conn.toFlushing; repeat' split
                   all_goals simp [Deep]
  case flushingRest => unfold Conn.flushingRest; repeat' split
                       all_goals simp [Deep]
  case closed => unfold Conn.toClosed; repeat' split
                 all_goals simp [Deep]
  case closedRest => simp [Conn.closedRest]
  case errorResponse => unfold Conn.errorResponse; repeat' split
                        all_goals simp [Deep]
  case writeResponseRest ct =>
    have h : ct.length < 2147483648 := h
    unfold Conn.writeResponseRest; dsimp only; repeat' split
    all_goals simp [Deep, h]
  case writeHeaders => unfold Conn.writeHeaders; dsimp only; repeat' split
                       all_goals simp [Deep]
  case writeContent => unfold Conn.writeContent; dsimp only; repeat' split
                       all_goals simp [Deep]
  case endContent => unfold Conn.endContent; dsimp only; repeat' split
                     all_goals simp [Deep]

theorem buildHead_args {b : Bytes} {x y : Bool} {r : ReqView} {n st : Int} {hs : Headers} {h : RespHead} (e : buildHead b x r n y st hs = some h) : h.status = st ∧ h.headers = hs := by
  unfold buildHead at e
  dsimp only at e
  generalize hs.foldl scanHeader { out := b ++ statusLine r st, len := n } = sc at e
  cases hl : lengthLine sc.len with
  | none => rw [hl] at e; cases e
  | some cl =>
    rw [hl, Option.map_some, Option.some.injEq] at e
    subst e
    exact ⟨rfl, rfl⟩

theorem exec_logged {k : Nat} {i : Instr} {c : Conn} (h : Top c i) (hl : Logged c.log) : Logged (exec k i c).1.log := by
  rcases exec_log k i c with e | ⟨ev, e, g⟩
  · rw [e]; exact hl
  · rw [e]
    refine ⟨fun hd hm => ?_, fun bs hm => ?_⟩
    · rcases List.mem_append.1 hm with hm | hm
      · exact hl.1 hd hm
      · rw [List.mem_singleton] at hm
        subst hm
        obtain ⟨st, hs, rfl, hst, hb⟩ := g
        obtain ⟨e1, e2⟩ := buildHead_args hb
        rw [e1, e2, buildHead_len hb]
        exact h hst
    · rcases List.mem_append.1 hm with hm | hm
      · exact hl.2 bs hm
      · rw [List.mem_singleton] at hm
        subst hm
        obtain ⟨rfl, -⟩ := g
        exact h

theorem logged_snoc {log : List Ev} {e : Ev} (h : Logged log) (h1 : ∀ x, e ≠ .head x) (h2 : ∀ x, e ≠ .chunk x) : Logged (log ++ [e]) :=
  ⟨fun hd hm => by
    rcases List.mem_append.1 hm with hm | hm
    · exact h.1 hd hm
    · exact absurd (List.mem_singleton.1 hm).symm (h1 hd), fun bs hm => by
    rcases List.mem_append.1 hm with hm | hm
    · exact h.2 bs hm
    · exact absurd (List.mem_singleton.1 hm).symm (h2 bs)⟩

theorem env_deep {s : Conf} (he : s.inEnv = true) (h : Stack s.c s.stack) : ∀ j ∈ s.stack, Deep j := by
  rcases (inEnv_iff s).1 he with e | ⟨rest, e⟩
  · rw [e]; simp
  · rw [e] at h ⊢
    intro j hj
    rcases List.mem_cons.1 hj with rfl | hj
    · trivial
    · exact h.2 j hj

/-- While a request waits for its response no length is stored. -/
theorem waiting_len {s : Conf} (h : Reach Proper s) (he : s.inEnv = true) (hf : s.c.fault = none) (hst : s.c.st = .sendingHeaders) : s.c.respLen = -1 := by
  have hc := reach_core h he hf (by rw [hst]; simp) (by rw [hst]; simp)
  obtain ⟨ph, -, hd⟩ := hc.data
  exact ((settled_sendH hst).1 ((inEnv_settled he).1 hd)).2.2.2.2.1

theorem invariant {s : Conf} (h : Reach Properly s) : Stack s.c s.stack ∧ Logged s.c.log := by
  induction h with
  | start => exact ⟨trivial, by constructor <;> (intro _ h; cases h)⟩
  | step s s' l hr ha hs ih =>
    have hr : Reach Proper s := reach_mono (fun _ _ h => h.1) hr
    obtain ⟨ih1, ih2⟩ := ih
    have hf : s.c.fault = none := by
      unfold Conf.step at hs
      split at hs
      · cases hs
      · rename_i g; simpa using g
    cases l with
    | tau k =>
      obtain ⟨i, rest, e1, e2, rfl⟩ := Pillow.Depth.step_tau hs
      rw [e1] at ih1
      refine ⟨?_, exec_logged ih1.1 ih2⟩
      by_cases hi : ∃ st hs ct, i = .writeResponse st hs ct
      · obtain ⟨st, hs, ct, rfl⟩ := hi
        obtain ⟨h1, h2⟩ := ih1.1
        show Stack (exec k _ s.c).1 ((exec k _ s.c).2 ++ rest)
        dsimp only [exec]
        unfold Conn.writeResponse
        split
        · exact stack_deep (by simpa using ih1.2)
        · refine ⟨fun _ => h1, fun j hj => ?_⟩
          rcases List.mem_cons.1 hj with rfl | hj
          · exact h2
          · exact ih1.2 j (by simpa using hj)
      · refine stack_deep fun j hj => ?_
        rcases List.mem_append.1 hj with hj | hj
        · exact exec_deep k i s.c ih1.1 (fun st hs ct e => hi ⟨st, hs, ct, e⟩) j hj
        · exact ih1.2 j hj
    | ret =>
      obtain ⟨rest, e1, rfl⟩ := Pillow.Depth.step_ret hs
      rw [e1] at ih1
      exact ⟨stack_deep ih1.2, ih2⟩
    | call a =>
      have hp := ha.2 a rfl
      unfold Conf.step at hs; rw [if_neg (by rw [hf]; simp)] at hs; dsimp only at hs
      split at hs
      · rename_i he; cases hs
        refine ⟨⟨?_, env_deep he ih1⟩, ih2⟩
        cases a <;> first | exact hp | trivial | skip
        intro hst
        rw [waiting_len hr he hf hst]
        exact hp
      · cases hs
    | recv bs =>
      unfold Conf.step at hs; rw [if_neg (by rw [hf]; simp)] at hs; dsimp only at hs
      split at hs
      · rename_i he
        split at hs
        · cases hs; exact ⟨stack_deep (env_deep (s := s) he ih1), logged_snoc ih2 (by simp) (by simp)⟩
        · cases hs
      · cases hs
    | bytesWritten k =>
      unfold Conf.step at hs; rw [if_neg (by rw [hf]; simp)] at hs; dsimp only at hs
      split at hs
      · rename_i he
        split at hs
        · cases hs
          refine ⟨stack_deep ?_, ih2⟩
          have := env_deep he ih1
          split
          · intro j hj
            rcases List.mem_cons.1 hj with rfl | hj
            · trivial
            · exact this j hj
          · exact this
        · cases hs
      · cases hs
    | init =>
      unfold Conf.step at hs; rw [if_neg (by rw [hf]; simp)] at hs; dsimp only at hs
      split at hs
      · rename_i he; cases hs
        have e1 : s.c.initialize.log = s.c.log ++ [.init] := by
          unfold Conn.initialize Conn.toReceivingHeaders Conn.emit; dsimp only; split <;> rfl
        refine ⟨stack_deep (env_deep (s := s) he ih1), ?_⟩
        show Logged s.c.initialize.log
        rw [e1]
        exact logged_snoc ih2 (by simp) (by simp)
      · cases hs
    | readParams =>
      unfold Conf.step at hs; rw [if_neg (by rw [hf]; simp)] at hs; dsimp only at hs
      split at hs
      · rename_i he; cases hs
        have : s.c.requestParams.log = s.c.log := by unfold Conn.requestParams; split <;> rfl
        exact ⟨stack_deep (env_deep (s := s) he ih1), by show Logged s.c.requestParams.log; rw [this]; exact ih2⟩
      · cases hs
    | setParam n v =>
      unfold Conf.step at hs; rw [if_neg (by rw [hf]; simp)] at hs; dsimp only at hs
      split at hs
      · rename_i he; cases hs
        have : (s.c.setRequestParam n v).log = s.c.log := by unfold Conn.setRequestParam Conn.requestParams; dsimp only; split <;> rfl
        exact ⟨stack_deep (env_deep (s := s) he ih1), by show Logged (s.c.setRequestParam n v).log; rw [this]; exact ih2⟩
      · cases hs
    | readDecoded d =>
      unfold Conf.step at hs; rw [if_neg (by rw [hf]; simp)] at hs; dsimp only at hs
      split at hs
      · rename_i he; cases hs
        have : (s.c.readDecoded d).log = s.c.log := by cases d <;> (unfold Conn.readDecoded; dsimp only; split <;> rfl)
        exact ⟨stack_deep (env_deep (s := s) he ih1), by show Logged (s.c.readDecoded d).log; rw [this]; exact ih2⟩
      · cases hs

/-! ### The size of a head -/

def weight (hs : Headers) : Nat := (hs.map fun x => x.name.length + x.value.length + 4).sum

theorem lineOf_len (x : Header) : (lineOf x).length = x.name.length + x.value.length + 4 := by unfold lineOf; simp; omega

theorem weight_cons (x : Header) (hs : Headers) : weight (x :: hs) = (lineOf x).length + weight hs := by rw [lineOf_len]; rfl

theorem line_le {x : Header} : ∀ {hs : Headers}, x ∈ hs → (lineOf x).length ≤ weight hs
  | y :: hs, h => by
    rw [weight_cons]
    rcases List.mem_cons.1 h with rfl | h
    · omega
    · have := line_le h; omega

theorem others_le : ∀ hs : Headers, (otherLines hs).length ≤ weight hs
  | [] => by simp [otherLines, weight]
  | x :: hs => by
    have ih := others_le hs
    rw [weight_cons]
    unfold otherLines at ih ⊢
    rw [List.filter_cons]
    split
    · rw [List.map_cons, List.flatten_cons, List.length_append]; omega
    · omega

theorem status_le : ∀ c ∈ rfcCodes, (statusText c).length ≤ 60 := by decide +kernel

theorem head_size {r : ReqView} {lenIn : Int} {h : RespHead} (sp : HeadSpec r lenIn h.status h.headers h) (ha : HeadArgs h.status h.headers h.len) (hv : PlainVersion r) : h.bytes.length ≤ 80 * 1024 - 2 := by
  obtain ⟨cl, h1, h2⟩ := sp.bytes
  have hlen := ha.length
  rw [lengthLine_isSome _ ⟨by omega, by omega⟩, Option.some.injEq] at h1
  have hcl : cl.length ≤ 40 := by
    rw [← h1]
    split
    · simp
    · have : (renderInt 10 h.len).length ≤ 10 := by
        unfold renderInt
        rw [if_neg (by omega)]
        exact digits10_len 9 _ (by omega)
      simp; omega
  have hw : weight h.headers ≤ 26000 := ha.size
  have e1 := others_le h.headers
  have e2 : (typeHeader h.headers h.len).length ≤ weight h.headers + 40 := by
    unfold typeHeader
    split
    · rename_i t ht; have := line_le ((lastHeader_mem ht).1); omega
    · split <;> simp <;> omega
  have e3 : (connectionHeader r h.keepAlive).length ≤ 40 := by
    unfold connectionHeader
    repeat' split
    all_goals decide
  have e4 : (encodingHeader h.headers h.chunked).length ≤ weight h.headers := by
    unfold encodingHeader
    split
    · rename_i t ht
      split
      · simp
      · exact line_le ((lastHeader_mem ht).1)
    · simp
  have e5 : (statusLine r h.status).length ≤ 1100 := by
    obtain ⟨maj, min, hv1, -, -, hv2⟩ := hv
    have := status_le h.status ha.status
    unfold statusLine
    rw [hv1]
    simp
    omega
  rw [h2]
  simp only [List.length_append]
  show _ + [(13 : Byte), 10].length ≤ _
  simp only [List.length_cons, List.length_nil]
  omega

/-- What the calls say about the heads that were written. -/
theorem heads {s : Conf} (hr : Reach Properly s) (hv : ∀ r ∈ readys s.c.log, PlainVersion r) :
    (∀ a h rest r, s.c.log = a ++ .head h :: rest → (readys a).getLast? = some r → ProperHead r h) ∧ ∀ bs, .chunk bs ∈ s.c.log → bs.length < 2147483648 := by
  obtain ⟨-, hl⟩ := invariant hr
  have hp : Reach Proper s := reach_mono (fun _ _ h => h.1) hr
  refine ⟨fun a h rest r e hreq => ?_, hl.2⟩
  have ha := hl.1 h (by rw [e]; simp)
  have hr' : PlainVersion r := hv r (by
    have := List.mem_of_getLast? hreq
    rw [e, readys_append']
    exact List.mem_append_left _ this)
  obtain ⟨lenIn, -, sp⟩ := head_in_log s hp a rest h e r hreq
  refine ⟨ha.status, ha.length, ?_, ha.headers, ha.codings, head_size sp ha hr', ha.nothing⟩
  obtain ⟨maj, min, h1, h2, h3, -⟩ := hr'
  exact ⟨maj, min, h1, h2, h3⟩

end WireCalls

/-- **C99**, for a handler that makes its calls with proper arguments (whenever and in whatever order it makes them) and clients with ordinary versions in their requests: all that the connection has
written is whole responses to its requests in order, as in `C99_wire_partial`. -/
theorem C99_calls_partial (s : Conf) (hr : Reach Properly s) (hv : ∀ r ∈ readys s.c.log, PlainVersion r) : Stands (readys (epoch s.c.log)) (completions (epoch s.c.log)) (wireOf (epoch s.c.log)) :=
  C99_wire_partial s (reach_mono (fun _ _ h => h.1) hr) (WireCalls.heads hr hv).1 (WireCalls.heads hr hv).2

theorem properly_runIf : ∀ (ls : List Label) (s t : Conf), (∀ l ∈ ls, ∀ a, l = .call a → ProperCall a) → Reach Properly s → s.runIf Proper ls = some t → Reach Properly t
  | [], s, t, _, h, e => by simp [Conf.runIf] at e; subst e; exact h
  | l :: ls, s, t, hp, h, e => by
    simp only [Conf.runIf] at e
    split at e
    · rename_i ha
      cases hs : s.step l with
      | none => rw [hs] at e; cases e
      | some s' => rw [hs] at e; exact properly_runIf ls s' t (fun l' hl => hp l' (by simp [hl])) (.step s s' l h ⟨ha, hp l (by simp)⟩ hs) e
    · cases e

theorem demo_args {n : Int} (h : -1 ≤ n ∧ n < 2147483648) : HeadArgs 200 [⟨b!"X-Y", b!"z"⟩] n where
  status := by decide
  length := h
  headers := by intro x hx; simp only [List.mem_singleton] at hx; subst hx; exact demo_plain
  codings := by
    intro t ht
    have hn : lastHeader [⟨b!"X-Y", b!"z"⟩] b!"transfer-encoding" = none := by decide +kernel
    rw [hn] at ht; cases ht
  size := by decide
  nothing := by intro hn; exact absurd hn (by decide)

/-- The hypotheses are met: one request is answered at once, the next one asked for an interim response and is being answered piece by piece. -/
example : ∃ s, Reach Properly s ∧ (∀ r ∈ readys s.c.log, PlainVersion r) ∧ (readys (epoch s.c.log)).length = 2 ∧ completions (epoch s.c.log) = 1 ∧
    wireOf (epoch s.c.log) = b!"HTTP/1.1 200 OK\r\nX-Y: z\r\nContent-Length: 5\r\nContent-Type: text/plain\r\n\r\nhelloHTTP/1.1 100 Continue\r\n\r\nHTTP/1.1 200 OK\r\nX-Y: z\r\nConnection: close\r\n\r\nabc" := by
  have h2 : (match Conf.runIf Proper {} ([.init, .recv b!"GET /a HTTP/1.1\r\n\r\n", .call .processInput] ++ taus 3 ++ [.call (.writeResponse 200 [⟨b!"X-Y", b!"z"⟩] b!"hello")] ++ taus 7 ++
      [.ret] ++ taus 2 ++ [.ret] ++ taus 2 ++ [.ret, .recv b!"POST /b HTTP/1.1\r\nContent-Length: 2\r\nExpect: 100-continue\r\n\r\n", .call .processInput] ++ taus 3 ++
      [.recv b!"hi", .call .processInput] ++ taus 2 ++ [.call (.writeHeaders 200 [⟨b!"X-Y", b!"z"⟩])] ++ taus 3 ++ [.call (.writeContent b!"abc")] ++ taus 1) with
    | some s => (readys s.c.log).all (fun r => r.version == b!"HTTP/1.1") && (readys (epoch s.c.log)).length == 2 && completions (epoch s.c.log) == 1 &&
      wireOf (epoch s.c.log) == b!"HTTP/1.1 200 OK\r\nX-Y: z\r\nContent-Length: 5\r\nContent-Type: text/plain\r\n\r\nhelloHTTP/1.1 100 Continue\r\n\r\nHTTP/1.1 200 OK\r\nX-Y: z\r\nConnection: close\r\n\r\nabc"
    | none => false) = true := by decide +kernel
  split at h2
  · rename_i t ht
    simp only [Bool.and_eq_true, beq_iff_eq, List.all_eq_true] at h2
    obtain ⟨⟨⟨k1, k2⟩, k3⟩, k4⟩ := h2
    refine ⟨t, properly_runIf _ _ _ ?_ .start ht, fun r hr => ⟨b!"1", b!"1", by rw [k1 r hr]; rfl, ⟨1, by decide +kernel, by decide⟩, ⟨1, by decide +kernel, by decide⟩, by decide⟩, k2, k3, k4⟩
    intro l hl a e
    subst e
    simp [taus, List.mem_replicate] at hl
    rcases hl with rfl | rfl | rfl | rfl | rfl | rfl
    all_goals first | trivial | skip
    · exact ⟨demo_args (by decide +kernel), by decide⟩
    · exact demo_args (by decide +kernel)
    · show (_ : List Byte).length < _; decide
  · cases h2

/-- **C99** for a handler all of whose calls have proper arguments. -/
theorem C99_handler_partial (h : ReqView → Reply) (hp : ∀ r, ∀ a ∈ (h r).calls, ProperCall a) (s : Conf) (hr : Reach (ServedBy h) s) (hv : ∀ r ∈ readys s.c.log, PlainVersion r) :
    Stands (readys (epoch s.c.log)) (completions (epoch s.c.log)) (wireOf (epoch s.c.log)) := by
  refine C99_calls_partial s (reach_mono (fun t l hl => ⟨hl.1.1, fun a e => ?_⟩) hr) hv
  by_cases hw : Writes a
  · exact hp _ a (hl.2 a e hw)
  · cases a <;> first | trivial | exact absurd trivial hw

/-- **C99** for `HttpHandlerFixed`: with a status of the standard and content of less than 2 GiB (none with a 204, 304 or 1xx). -/
theorem C99_fixed (status : Int) (content : Bytes) (h1 : status ∈ rfcCodes) (h2 : content.length < 2147483648) (h3 : Spec.NoContent status.toNat → content = []) (s : Conf)
    (hr : Reach (ServedBy (fixedHandle status content)) s) (hv : ∀ r ∈ readys s.c.log, PlainVersion r) :
    Stands (readys (epoch s.c.log)) (completions (epoch s.c.log)) (wireOf (epoch s.c.log)) := by
  refine C99_handler_partial _ (fun r a ha => ?_) s hr hv
  have : a = .writeResponse status [] content := List.mem_singleton.1 ha
  subst this
  have hd : declaredLength content.length [] = content.length := rfl
  refine ⟨⟨h1, by rw [hd]; omega, by simp, fun t ht => (nomatch ht), by decide, fun hn => ?_⟩, h2⟩
  rw [hd, h3 hn]; rfl

/-- Two pipelined requests answered by a `HttpHandlerFixed`. -/
example : ∃ s, Reach (ServedBy (fixedHandle 200 b!"ok")) s ∧ (∀ r ∈ readys s.c.log, PlainVersion r) ∧ (readys (epoch s.c.log)).length = 2 ∧ completions (epoch s.c.log) = 2 := by
  obtain ⟨t, h1, h2⟩ := exists_of_endsIn (allowed := ServedBy (fixedHandle 200 b!"ok"))
    (ls := [.init, .recv b!"GET /a HTTP/1.1\r\n\r\nGET /b HTTP/1.1\r\n\r\n", .call .processInput] ++ taus 3 ++
      [.call (.writeResponse 200 [] b!"ok")] ++ taus 7 ++ [.ret] ++ taus 2 ++ [.ret] ++ taus 4 ++ [.call (.writeResponse 200 [] b!"ok")] ++ taus 7)
    (p := fun s => (readys s.c.log).all (fun r => r.version == b!"HTTP/1.1") && (readys (epoch s.c.log)).length == 2 && completions (epoch s.c.log) == 2) (by decide +kernel)
  simp only [Bool.and_eq_true, beq_iff_eq, List.all_eq_true] at h2
  obtain ⟨⟨k1, k2⟩, k3⟩ := h2
  exact ⟨t, h1, fun r hr => ⟨b!"1", b!"1", by rw [k1 r hr]; rfl, ⟨1, by decide +kernel, by decide⟩, ⟨1, by decide +kernel, by decide⟩, by decide⟩, k2, k3⟩

theorem fold_none (f : Nat → Byte → Option Nat) : ∀ l : Bytes, l.foldl (fun acc c => acc.bind fun a => f a c) none = none
  | [] => rfl
  | _ :: l => fold_none f l

/-- No head begins with such a version. -/
theorem no_such_head {H : RHead} (hw : H.Wf) {w x : Bytes} : b!"HTTP/1000.1 " ++ x ≠ H.render ++ w := by
  intro e
  obtain ⟨n, h1, h2⟩ := hw.major
  unfold RHead.render at e
  simp only [List.append_assoc] at e
  generalize hz : H.minor ++ _ = z at e
  have e : b!"1000.1 " ++ x = H.major ++ 46 :: z := by
    have : b!"HTTP/" ++ (b!"1000.1 " ++ x) = b!"HTTP/" ++ (H.major ++ 46 :: z) := e
    exact List.append_cancel_left this
  generalize H.major = m at e h1
  match m with
  | [] => cases h1
  | [_] => simp at e
  | [_, _] => simp at e
  | [_, _, _] => simp at e
  | [a, b, c, d] =>
    simp at e
    obtain ⟨rfl, rfl, rfl, rfl, -⟩ := e
    have : readNat 10 b!"1000" = some 1000 := by decide +kernel
    rw [show [(49 : Byte), 48, 48, 48] = b!"1000" from rfl, this] at h1
    cases h1
    omega
  | a :: b :: c :: d :: f :: t =>
    simp at e
    obtain ⟨rfl, rfl, rfl, rfl, rfl, -⟩ := e
    unfold readNat at h1
    rw [if_neg (by simp)] at h1
    have := fold_none (fun a c => (hexVal c).bind fun d => if d < 10 then some (10 * a + d) else none) t
    have hd : ([49, 48, 48, 48, 46] : Bytes).foldl (fun acc c => acc.bind fun a => (hexVal c).bind fun d => if d < 10 then some (10 * a + d) else none) (some 0) = none := by decide +kernel
    have e2 : ((49 :: 48 :: 48 :: 48 :: 46 :: t : Bytes)).foldl (fun acc c => acc.bind fun a => (hexVal c).bind fun d => if d < 10 then some (10 * a + d) else none) (some 0) = none := by
      have : (49 :: 48 :: 48 :: 48 :: 46 :: t : Bytes) = [49, 48, 48, 48, 46] ++ t := rfl
      rw [this, List.foldl_append, hd]
      assumption
    exact absurd (h1.symm.trans e2) (by simp)

theorem stands_one {r : ReqView} {w : Bytes} (h : Stands [r] 1 w) (hn : ¬ WantsContinue r) : ∃ (H : RHead) (z : Bytes), H.Wf ∧ w = H.render ++ z := by
  have before : ∀ i, Before r i → i = [] := fun i h => by
    rcases h with ⟨h, -⟩ | ⟨-, h⟩
    · exact absurd h hn
    · exact h
  have nothing : ∀ {rs : List ReqView} {w : Bytes}, AllAnswered rs w → rs = [] → w = [] := fun h e => by
    cases h with
    | none => rfl
    | more => simp at e
  have all : ∀ {rs : List ReqView} {w : Bytes}, AllAnswered rs w → rs = [r] → ∃ (H : RHead) (z : Bytes), H.Wf ∧ w = H.render ++ z := fun h e => by
    cases h with
    | none => simp at e
    | more r' i x ha hb hf =>
      obtain ⟨e1, e2⟩ := List.append_inj' (show _ = [] ++ [r] from e) rfl
      cases e2
      rw [nothing ha e1, before i hb]
      obtain ⟨H, z, -, h1, h2, -⟩ := hf
      exact ⟨H, z, h1, h2⟩
  generalize hrs : [r] = rs at h
  generalize hk : 1 = k at h
  cases h with
  | idle h => exact all h hrs.symm
  | interim h =>
    obtain ⟨H, z, h1, h2⟩ := all h hrs.symm
    exact ⟨H, _, h1, by rw [h2, List.append_assoc]⟩
  | refused code h =>
    obtain ⟨H, z, h1, h2⟩ := all h hrs.symm
    exact ⟨H, _, h1, by rw [h2, List.append_assoc]⟩
  | busy r' i ha hb => have := congrArg List.length hrs; rw [List.length_append] at this; simp only [List.length_cons, List.length_nil] at this; omega
  | begun r' i x more ha hb hf => have := congrArg List.length hrs; rw [List.length_append] at this; simp only [List.length_cons, List.length_nil] at this; omega
  | last r' i x ha hb hf =>
    obtain ⟨e1, e2⟩ := List.append_inj' (show [] ++ [r] = _ from hrs) rfl
    cases e2
    rw [nothing ha e1.symm, before i hb]
    obtain ⟨H, z, h1, h2, -⟩ := hf
    exact ⟨H, z, h1, h2⟩

/-- The condition on the versions is needed: the version of the request is copied into the status line, and the parser of requests lets numbers of any size pass. -/
theorem C99_version_violation : ∃ s, Reach Properly s ∧ (readys s.c.log).map (·.version) = [b!"HTTP/1000.1"] ∧ ¬ Stands (readys (epoch s.c.log)) (completions (epoch s.c.log)) (wireOf (epoch s.c.log)) := by
  have h2 : (match Conf.runIf Proper {} ([.init, .recv b!"GET /a HTTP/1000.1\r\n\r\n", .call .processInput] ++ taus 3 ++ [.call (.writeResponse 200 [⟨b!"X-Y", b!"z"⟩] b!"hello")] ++ taus 7) with
    | some s => (readys s.c.log).map (·.version) == [b!"HTTP/1000.1"] && completions (epoch s.c.log) == 1 &&
      (match readys (epoch s.c.log) with | [r] => r.content == [] | _ => false) &&
      wireOf (epoch s.c.log) == b!"HTTP/1000.1 " ++ b!"200 OK\r\nX-Y: z\r\nContent-Length: 5\r\nContent-Type: text/plain\r\nConnection: close\r\n\r\nhello"
    | none => false) = true := by decide +kernel
  split at h2
  · rename_i t ht
    simp only [Bool.and_eq_true, beq_iff_eq] at h2
    obtain ⟨⟨⟨k1, k2⟩, k3⟩, k4⟩ := h2
    refine ⟨t, properly_runIf _ _ _ ?_ .start ht, k1, fun hs => ?_⟩
    · intro l hl a e
      subst e
      simp [taus, List.mem_replicate] at hl
      rcases hl with rfl | rfl
      · trivial
      · exact ⟨demo_args (by decide +kernel), by decide⟩
    · split at k3
      · rename_i r hr
        rw [hr, k2, k4] at hs
        obtain ⟨H, z, h1, h2⟩ := stands_one hs fun hw => hw.1 (by simpa using k3)
        exact no_such_head h1 h2
      · cases k3
  · cases h2

end Pillow.Props
