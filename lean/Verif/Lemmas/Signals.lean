import Verif.Lemmas.ClientLog
import Verif.Lemmas.ParserPhase
import Verif.Spec.Signals
/-!
# The order of the client's signals
-/
namespace Pillow
open Spec

/-- The stage of the request, where `o` is the status the parser has announced. -/
def AtStage (o : Option Nat) (c : Client) : Prop :=
  match o with
  | none => Signals c.log (.waiting c.request) ∧ c.d.content = []
  | some st => if st = 100 then Signals c.log (.waiting c.request) else ∃ hs, hs <+: c.d.headers ∧ Signals c.log (.shown c.request st hs c.d.content)

/-- The response has not been announced if the request is HEAD. -/
def Unsaid (o : Option Nat) (c : Client) : Prop := IsHead c.request → ∀ st, o = some st → st = 100

/-- An announced HEAD request has been aborted. -/
def Again (c : Client) : Prop := c.error = .aborted ∧ Signals c.log (.again c.p.status c.d.headers c.d.content)

/-- While parsing; `a` tells whether the request is HEAD and has been announced. -/
structure During (a : Bool) (o : Option Nat) (c : Client) : Prop where
  parsing : c.parsing = true
  live : c.responsePending = true → AtStage o c ∧ ∀ st, o = some st → c.p.status = st
  told : c.responsePending = true → (a = false ↔ Unsaid o c)
  idle : c.responsePending = false → if a then Again c else Signals c.log .idle

/-- Otherwise. -/
structure Between (c : Client) : Prop where
  parsing : c.parsing = false
  live : c.responsePending = true → c.p.Phase ∧ AtStage c.p.seen c ∧ Unsaid c.p.seen c
  idle : c.responsePending = false → Signals c.log .idle

def EmDuring (em : Signal → Client → Client) : Prop := ∀ a o s c, During a o (c.add (c.shows s)) → During a o (em s c)
def EmBetween (em : Signal → Client → Client) : Prop := ∀ s c, Between (c.add (c.shows s)) → Between (em s c)

theorem live_same {o : Option Nat} {c c' : Client} (h : AtStage o c) (e1 : c'.log = c.log) (e2 : c'.d.headers = c.d.headers) (e3 : c'.d.content = c.d.content) (e4 : c'.request = c.request) : AtStage o c' := by
  unfold AtStage at h ⊢
  rw [e1, e2, e3, e4]; exact h

theorem live_aside {o : Option Nat} {c c' : Client} (h : AtStage o c) (e : CEv) (he : CEv.Aside e) (hn : ∀ ct, e ≠ .consumed ct) (e1 : c'.log = c.log ++ [e]) (e2 : c'.d.headers = c.d.headers)
    (e3 : c'.d.content = c.d.content) (e4 : c'.request = c.request) : AtStage o c' := by
  unfold AtStage at h ⊢
  rw [e1, e2, e3, e4]
  have key : ∀ s, Signals c.log s → Signals (c.log ++ [e]) s := fun s hs => .other e he (fun ct hh => absurd hh (hn ct)) hs
  cases o with
  | none => exact ⟨key _ h.1, h.2⟩
  | some st =>
    dsimp only at h ⊢
    split at h
    · rename_i hs; rw [if_pos hs]; exact key _ h
    · rename_i hs; rw [if_neg hs]
      obtain ⟨hs, h1, h2⟩ := h
      exact ⟨hs, h1, key _ h2⟩

theorem idle_aside {l : List CEv} (e : CEv) (he : CEv.Aside e) (h : Signals l .idle) : Signals (l ++ [e]) .idle :=
  .other e he (fun _ _ => rfl) h

theorem Unsaid.same {o : Option Nat} {c c' : Client} (h : Unsaid o c) (e : c'.request = c.request) : Unsaid o c' := by
  unfold Unsaid at h ⊢; rw [e]; exact h

theorem Unsaid.congr {o : Option Nat} {c c' : Client} (e : c'.request = c.request) : Unsaid o c ↔ Unsaid o c' := ⟨fun h => h.same e, fun h => h.same e.symm⟩

theorem because_abort (l : List CEv) : Because (l ++ [.abort]) .aborted := by unfold Because; rw [if_pos rfl]; exact ⟨l, rfl⟩
theorem because_close (l : List CEv) {e : CError} (h : e ≠ .aborted) : Because (l ++ [.close]) e := by unfold Because; rw [if_neg h]; exact ⟨l, rfl⟩

/-- A failure may be reported at any stage. -/
theorem live_failed {o : Option Nat} {c : Client} (h : AtStage o c) (hst : ∀ st, o = some st → c.p.status = st) (e : CError) (he : e ≠ .noError) (hb : Because c.log e)
    (hq : e = .aborted → Unsaid o c) : Signals (c.log ++ [.finished e c.p.status c.d.headers c.d.content]) .idle := by
  unfold AtStage at h
  cases o with
  | none => exact .failed e _ _ _ h.1 trivial he hb fun h => h.1
  | some st =>
    dsimp only at h
    split at h
    · exact .failed e _ _ _ h trivial he hb fun h => h.1
    · rename_i hn
      obtain ⟨hs, h1, h2⟩ := h
      exact .failed e _ _ _ h2 ⟨hst st rfl, h1, rfl⟩ he hb fun h => hn (hq h.2 h.1 st rfl)

/-- The request is aborted. -/
theorem live_aborted {o : Option Nat} {c : Client} (h : AtStage o c) (hst : ∀ st, o = some st → c.p.status = st) (hb : Because c.log .aborted) :
    (Unsaid o c → Signals (c.log ++ [.finished .aborted c.p.status c.d.headers c.d.content]) .idle) ∧
    (¬ Unsaid o c → Signals (c.log ++ [.finished .aborted c.p.status c.d.headers c.d.content]) (.again c.p.status c.d.headers c.d.content)) := by
  refine ⟨fun hq => live_failed h hst .aborted (by simp) hb fun _ => hq, fun hq => ?_⟩
  · unfold Unsaid at hq
    have hh : IsHead c.request := Classical.byContradiction fun hn => hq fun h => absurd h hn
    obtain ⟨st, hs⟩ := Classical.not_forall.1 (fun h => hq fun _ => h)
    obtain ⟨ho, hn⟩ := Classical.not_imp.1 hs
    subst ho
    unfold AtStage at h
    dsimp only at h
    rw [if_neg hn] at h
    obtain ⟨hs, h1, h2⟩ := h
    exact .abortedHead _ _ _ h2 hh ⟨hst st rfl, h1, rfl⟩ hb

/-- … its end only when it has been announced. -/
theorem live_complete {c : Client} {st : Nat} (h : AtStage (some st) c) (hst : st ≠ 100) (hs : c.p.status = st) :
    Signals (c.log ++ [.finished .noError c.p.status c.d.headers c.d.content]) .idle := by
  unfold AtStage at h
  dsimp only at h
  rw [if_neg hst] at h
  obtain ⟨hs', h1, h2⟩ := h
  rw [hs]
  exact .complete _ h2 h1

theorem live_consumed {o : Option Nat} {c : Client} (h : AtStage o c) {c' : Client} (e1 : c'.log = c.log ++ [.consumed c.d.content]) (e2 : c'.d.headers = c.d.headers) (e3 : c'.d.content = [])
    (e4 : c'.request = c.request) : AtStage o c' := by
  unfold AtStage at h ⊢
  rw [e1, e2, e3, e4]
  have key : Signals c.log (.waiting c.request) → Signals (c.log ++ [.consumed c.d.content]) (.waiting c.request) := fun hs => .other _ trivial (fun _ _ => rfl) hs
  cases o with
  | none => exact ⟨key h.1, rfl⟩
  | some st =>
    dsimp only at h ⊢
    split at h
    · rename_i hs; rw [if_pos hs]; exact key h
    · rename_i hs; rw [if_neg hs]
      obtain ⟨hs, h1, h2⟩ := h
      exact ⟨hs, h1, .consumed h2⟩

theorem During.same {a : Bool} {o : Option Nat} {c c' : Client} (h : During a o c) (e1 : c'.log = c.log) (e2 : c'.d.headers = c.d.headers) (e3 : c'.d.content = c.d.content) (e4 : c'.parsing = c.parsing)
    (e5 : c'.responsePending = c.responsePending) (e6 : c'.p.status = c.p.status) (e7 : c'.request = c.request) (e8 : c'.error = c.error) : During a o c' :=
  ⟨e4.trans h.parsing, fun hp => ⟨live_same (h.live (e5 ▸ hp)).1 e1 e2 e3 e7, fun st hs => e6.trans ((h.live (e5 ▸ hp)).2 st hs)⟩, fun hp => (h.told (e5 ▸ hp)).trans (Unsaid.congr e7),
    fun hp => by unfold Again; rw [e1, e2, e3, e6, e8]; exact h.idle (e5 ▸ hp)⟩

theorem During.aside {a : Bool} {o : Option Nat} {c c' : Client} (h : During a o c) (e : CEv) (he : CEv.Aside e) (hn : ∀ ct, e ≠ .consumed ct) (e1 : c'.log = c.log ++ [e]) (e2 : c'.d.headers = c.d.headers)
    (e3 : c'.d.content = c.d.content) (e4 : c'.parsing = c.parsing) (e5 : c'.responsePending = c.responsePending) (e6 : c'.p.status = c.p.status) (e7 : c'.request = c.request)
    (e8 : c'.error = c.error) : During a o c' := by
  refine ⟨e4.trans h.parsing, fun hp => ⟨live_aside (h.live (e5 ▸ hp)).1 e he hn e1 e2 e3 e7, fun st hs => e6.trans ((h.live (e5 ▸ hp)).2 st hs)⟩, fun hp => (h.told (e5 ▸ hp)).trans (Unsaid.congr e7), fun hp => ?_⟩
  have h := h.idle (e5 ▸ hp)
  cases a with
  | false => show Signals c'.log .idle; rw [e1]; exact idle_aside e he h
  | true =>
    obtain ⟨h2, h3⟩ := h
    refine ⟨e8.trans h2, ?_⟩
    rw [e1, e2, e3, e6]
    exact .other e he (fun ct hh => absurd hh (hn ct)) h3

theorem Between.same {c c' : Client} (h : Between c) (e1 : c'.log = c.log) (e2 : c'.d.headers = c.d.headers) (e3 : c'.d.content = c.d.content) (e4 : c'.parsing = c.parsing)
    (e5 : c'.responsePending = c.responsePending) (e6 : c'.p = c.p) (e7 : c'.request = c.request) : Between c' :=
  ⟨e4.trans h.parsing, fun hp => by rw [e6]; exact ⟨(h.live (e5 ▸ hp)).1, live_same (h.live (e5 ▸ hp)).2.1 e1 e2 e3 e7, (h.live (e5 ▸ hp)).2.2.same e7⟩, fun hp => by rw [e1]; exact h.idle (e5 ▸ hp)⟩

theorem Between.aside {c c' : Client} (h : Between c) (e : CEv) (he : CEv.Aside e) (hn : ∀ ct, e ≠ .consumed ct) (e1 : c'.log = c.log ++ [e]) (e2 : c'.d.headers = c.d.headers)
    (e3 : c'.d.content = c.d.content) (e4 : c'.parsing = c.parsing) (e5 : c'.responsePending = c.responsePending) (e6 : c'.p = c.p) (e7 : c'.request = c.request) : Between c' :=
  ⟨e4.trans h.parsing, fun hp => by rw [e6]; exact ⟨(h.live (e5 ▸ hp)).1, live_aside (h.live (e5 ▸ hp)).2.1 e he hn e1 e2 e3 e7, (h.live (e5 ▸ hp)).2.2.same e7⟩,
    fun hp => by rw [e1]; exact idle_aside e he (h.idle (e5 ▸ hp))⟩

/-! ## The request does not change while parsing -/

def EmRequest (em : Signal → Client → Client) : Prop := ∀ s c, c.parsing = true → (em s c).request = c.request

theorem call_request {env : ClientEnv} {em : Signal → Client → Client} (he : EmRequest em) {c : Client} (u : UserCall) (h : c.parsing = true) : (c.call env em u).request = c.request := by
  have key : ∀ (c : Client) (r : ClientRequest), c.parsing = true → (c.makeRequest em r).request = c.request := by
    intro c r h
    unfold Client.makeRequest
    split
    · rfl
    · rfl
  cases u with
  | request r => exact key c r h
  | abort =>
    show (c.abort em).request = _
    unfold Client.abort
    dsimp only
    split
    · exact he _ _ h
    · rfl
  | consumeContent =>
    show c.consumeContent.request = _
    unfold Client.consumeContent
    dsimp only
    split <;> rfl
  | followRedirection =>
    show (c.followRedirection env em).request = _
    unfold Client.followRedirection
    dsimp only
    split
    · rfl
    · exact key (c.add .followRedirection) _ h
  | setKeepAliveTimeout ms => rfl
  | setReadBufferSize n => rfl

theorem calls_request {env : ClientEnv} {em : Signal → Client → Client} (he : EmRequest em) (hf : EmFramed em) : ∀ (l : List UserCall) {c : Client}, c.parsing = true →
    (l.foldl (Client.call env em) c).request = c.request
  | [], _, _ => rfl
  | u :: l, _, h => (calls_request he hf l (call_framed hf u h).1).trans (call_request he u h)

theorem emit_request (env : ClientEnv) : ∀ n, EmRequest (Client.emit env n)
  | 0, _, _, _ => rfl
  | n + 1, s, c, h => by
    show ((((c.add (c.shows s)).react s).1).foldl (Client.call env (Client.emit env n)) ((c.add (c.shows s)).react s).2).request = _
    refine (calls_request (emit_request env n) (emit_framed env n) _ ?_).trans ?_
    · cases s <;> exact h
    · cases s <;> rfl

/-! ## Calls while parsing -/

section
variable {em : Signal → Client → Client} (he : EmDuring em)

theorem makeRequest_during {a : Bool} {o : Option Nat} {c : Client} (h : During a o c) (r : ClientRequest) : During a o (c.makeRequest em r) := by
  unfold Client.makeRequest
  split
  · exact h.aside (.refused r) trivial (by simp) rfl rfl rfl rfl rfl rfl rfl rfl
  · rw [if_pos h.parsing]
    exact h.aside (.deferred r) trivial (by simp) rfl rfl rfl rfl rfl rfl rfl rfl

include he

theorem call_during (env : ClientEnv) {a : Bool} {o : Option Nat} {c : Client} (h : During a o c) (u : UserCall) : During a o (c.call env em u) := by
  cases u with
  | request r => exact makeRequest_during h r
  | abort =>
    show During a o (c.abort em)
    unfold Client.abort
    dsimp only
    have h1 : During a o { (c.add .abort) with sock := c.sock.abort } := h.aside .abort trivial (by simp) rfl rfl rfl rfl rfl rfl rfl rfl
    split
    · rename_i hp
      obtain ⟨k1, k2⟩ := h1.live hp
      refine he _ _ _ _ ⟨h.parsing, by rintro ⟨⟩, by rintro ⟨⟩, fun _ => ?_⟩
      have hlog : (c.log ++ [.abort]) ++ [.finished .aborted c.p.pause.status c.d.headers c.d.content] = (c.log ++ [.abort]) ++ [.finished .aborted c.p.status c.d.headers c.d.content] := by
        rw [pause_status]
      have hab := live_aborted (c := { (c.add .abort) with sock := c.sock.abort }) k1 k2 (because_abort _)
      cases a with
      | false =>
        show Signals ((c.log ++ [.abort]) ++ [.finished .aborted c.p.pause.status c.d.headers c.d.content]) .idle
        rw [hlog]
        exact hab.1 ((h1.told hp).1 rfl)
      | true =>
        refine ⟨rfl, ?_⟩
        show Signals ((c.log ++ [.abort]) ++ [.finished .aborted c.p.pause.status c.d.headers c.d.content]) (.again c.p.pause.status c.d.headers c.d.content)
        rw [hlog, pause_status]
        exact hab.2 fun h => by cases (h1.told hp).2 h
    · exact h1
  | consumeContent =>
    show During a o c.consumeContent
    unfold Client.consumeContent
    dsimp only
    have h1 : During a o { (c.add (.consumed c.d.content)) with d := { c.d with content := [] } } :=
      ⟨h.parsing, fun hp => ⟨live_consumed (h.live hp).1 rfl rfl rfl rfl, (h.live hp).2⟩, fun hp => (h.told hp).trans (Unsaid.congr rfl), fun hp => by
        have h := h.idle hp
        cases a with
        | false => exact idle_aside _ trivial h
        | true => exact ⟨h.1, .consumedAgain h.2⟩⟩
    split
    · exact h1.same rfl rfl rfl rfl rfl rfl rfl rfl
    · exact h1
  | followRedirection =>
    show During a o (c.followRedirection env em)
    unfold Client.followRedirection
    dsimp only
    have h : During a o (c.add .followRedirection) := h.aside .followRedirection trivial (by simp) rfl rfl rfl rfl rfl rfl rfl rfl
    split
    · exact h
    · exact makeRequest_during h _
  | setKeepAliveTimeout ms => exact h.same rfl rfl rfl rfl rfl rfl rfl rfl
  | setReadBufferSize n => exact h.same rfl rfl rfl rfl rfl rfl rfl rfl

theorem calls_during (env : ClientEnv) {a : Bool} {o : Option Nat} : ∀ (l : List UserCall) {c : Client}, During a o c → During a o (l.foldl (Client.call env em) c)
  | [], _, h => h
  | u :: l, _, h => calls_during env l (call_during he env h u)

end

theorem emit_during (env : ClientEnv) : ∀ n, EmDuring (Client.emit env n)
  | 0, _, _, _, _, h => h
  | n + 1, a, o, s, c, h => by
    show During a o ((((c.add (c.shows s)).react s).1).foldl (Client.call env (Client.emit env n)) ((c.add (c.shows s)).react s).2)
    refine calls_during (emit_during env n) env _ ?_
    cases s <;> exact h.same rfl rfl rfl rfl rfl rfl rfl rfl

/-! ## Calls between inputs -/

theorem sendRequest_between {c : Client} (h : Between c) : Between c.sendRequest := by
  unfold Client.sendRequest
  split
  · exact h
  · dsimp only
    split <;> exact h.aside (.write _ _) trivial (by simp) rfl rfl rfl rfl rfl rfl rfl

section
variable {em : Signal → Client → Client} (he : EmBetween em)
include he

theorem deviceError_between {c : Client} (h : Between c) (rc : Bool) : Between (c.deviceError em rc) := by
  unfold Client.deviceError
  split
  · exact h
  · rename_i hp
    have hp : c.responsePending = true := by simpa using hp
    dsimp only
    have h1 : Between { (c.add .close) with sock := c.sock.close } := h.aside .close trivial (by simp) rfl rfl rfl rfl rfl rfl rfl
    refine he _ _ ⟨h.parsing, by rintro ⟨⟩, fun _ => ?_⟩
    refine live_failed (c := { (c.add .close) with sock := c.sock.close }) (h1.live hp).2.1 ?_ (if rc then .remoteHostClosed else .network) ?_ (because_close _ (by cases rc <;> simp)) (by cases rc <;> simp)
    · intro st hs
      have hs : (if c.p.told then some c.p.status else none) = some st := hs
      split at hs
      · exact Option.some.inj hs
      · cases hs
    · cases rc <;> simp

theorem connectReply_between {c : Client} (h : Between c) : Between (c.connectReply em) := by
  unfold Client.connectReply
  dsimp only
  have h1 : Between { c with onConnect := c.onConnect.tail } := h.same rfl rfl rfl rfl rfl rfl rfl
  split
  · split
    · exact h1
    · exact sendRequest_between (c := { { c with onConnect := c.onConnect.tail } with sock := { c.sock with state := .connected } }) (h.same rfl rfl rfl rfl rfl rfl rfl)
    · exact deviceError_between he h1 _
  · exact h1

theorem accept_between {c : Client} (h : Between c) (hp : c.responsePending = false) (r : ClientRequest) : Between (c.accept em r) := by
  unfold Client.accept
  dsimp only
  generalize hc1 : Client.clear { (c.add (.accepted r)) with request := r, responsePending := true, error := .noError } = c1
  have h1 : Between c1 := by
    subst hc1
    unfold Client.clear
    dsimp only
    rw [if_neg (by show ¬ c.parsing = true; rw [h.parsing]; simp)]
    exact ⟨h.parsing, fun _ => ⟨trivial, ⟨.accepted r (h.idle hp), rfl⟩, fun _ st hs => by cases hs⟩, by rintro ⟨⟩⟩
  split
  · exact sendRequest_between h1
  · refine connectReply_between he ?_
    split
    · refine Between.aside (c := { (c1.add .disconnectFromHost) with sock := c1.sock.disconnectFromHost, hostHeaderValue := [] }) ?_ (.connectToHost _ _) trivial (by simp) rfl rfl rfl rfl rfl rfl rfl
      exact h1.aside .disconnectFromHost trivial (by simp) rfl rfl rfl rfl rfl rfl rfl
    · exact h1.aside (.connectToHost _ _) trivial (by simp) rfl rfl rfl rfl rfl rfl rfl

theorem makeRequest_between {c : Client} (h : Between c) (r : ClientRequest) : Between (c.makeRequest em r) := by
  unfold Client.makeRequest
  split
  · exact h.aside (.refused r) trivial (by simp) rfl rfl rfl rfl rfl rfl rfl
  · rename_i hp
    split
    · exact h.aside (.deferred r) trivial (by simp) rfl rfl rfl rfl rfl rfl rfl
    · exact accept_between he h (by simpa using hp) r

theorem call_between (env : ClientEnv) {c : Client} (h : Between c) (u : UserCall) : Between (c.call env em u) := by
  cases u with
  | request r => exact makeRequest_between he h r
  | abort =>
    show Between (c.abort em)
    unfold Client.abort
    dsimp only
    have h1 : Between { (c.add .abort) with sock := c.sock.abort } := h.aside .abort trivial (by simp) rfl rfl rfl rfl rfl rfl rfl
    split
    · rename_i hp
      refine he _ _ ⟨h.parsing, by rintro ⟨⟩, fun _ => ?_⟩
      have := live_failed (c := { (c.add .abort) with sock := c.sock.abort }) (h1.live hp).2.1 (by
        intro st hs
        have hs : (if c.p.told then some c.p.status else none) = some st := hs
        split at hs
        · exact Option.some.inj hs
        · cases hs) .aborted (by simp) (because_abort _) fun _ => (h1.live hp).2.2
      show Signals ((c.log ++ [.abort]) ++ [.finished .aborted c.p.pause.status c.d.headers c.d.content]) .idle
      rw [pause_status]
      exact this
    · exact h1
  | consumeContent =>
    show Between c.consumeContent
    unfold Client.consumeContent
    dsimp only
    have h1 : Between { (c.add (.consumed c.d.content)) with d := { c.d with content := [] } } :=
      ⟨h.parsing, fun hp => ⟨(h.live hp).1, live_consumed (h.live hp).2.1 rfl rfl rfl rfl, (h.live hp).2.2.same rfl⟩, fun hp => idle_aside _ trivial (h.idle hp)⟩
    split
    · exact h1.same rfl rfl rfl rfl rfl rfl rfl
    · exact h1
  | followRedirection =>
    show Between (c.followRedirection env em)
    unfold Client.followRedirection
    dsimp only
    have h : Between (c.add .followRedirection) := h.aside .followRedirection trivial (by simp) rfl rfl rfl rfl rfl rfl rfl
    split
    · exact h
    · exact makeRequest_between he h _
  | setKeepAliveTimeout ms => exact h.same rfl rfl rfl rfl rfl rfl rfl
  | setReadBufferSize n => exact h.same rfl rfl rfl rfl rfl rfl rfl

theorem calls_between (env : ClientEnv) : ∀ (l : List UserCall) {c : Client}, Between c → Between (l.foldl (Client.call env em) c)
  | [], _, h => h
  | u :: l, _, h => calls_between env l (call_between he env h u)

end

theorem emit_between (env : ClientEnv) : ∀ n, EmBetween (Client.emit env n)
  | 0, _, _, h => h
  | n + 1, s, c, h => by
    show Between ((((c.add (c.shows s)).react s).1).foldl (Client.call env (Client.emit env n)) ((c.add (c.shows s)).react s).2)
    refine calls_between (emit_between env n) env _ ?_
    cases s <;> exact h.same rfl rfl rfl rfl rfl rfl rfl

/-! ## The callbacks -/

/-- What holds when a callback is called, … -/
def SigJ (o : Option Nat) (c : Client) : Prop := CallsOk none c ∧ AtStage o c ∧ Unsaid o c
/-- … and what holds when the parser has been paused. -/
def SigK (p : HParser) (c : Client) : Prop := (c.responsePending = true → p.Phase ∧ AtStage p.seen c ∧ Unsaid p.seen c) ∧ (c.responsePending = false → Signals c.log .idle)

theorem During.k {o : Option Nat} {c : Client} (h : During false o c) (hp : c.responsePending = false) (p : HParser) : SigK p c :=
  ⟨fun hq => (by rw [hp] at hq; cases hq), fun _ => h.idle hp⟩

theorem push_prefix (d : RespData) : d.headers <+: d.push.headers ∧ d.push.content = d.content := by
  unfold RespData.push
  split
  · exact ⟨List.prefix_append _ _, rfl⟩
  · exact ⟨List.prefix_refl _, rfl⟩

theorem live_grow {o : Option Nat} {c c' : Client} (h : AtStage o c) (e1 : c'.log = c.log) (e2 : c.d.headers <+: c'.d.headers) (e3 : c'.d.content = c.d.content) (e4 : c'.request = c.request) : AtStage o c' := by
  unfold AtStage at h ⊢
  rw [e1, e3, e4]
  cases o with
  | none => exact h
  | some st =>
    dsimp only at h ⊢
    split at h
    · rename_i hs; rw [if_pos hs]; exact h
    · rename_i hs; rw [if_neg hs]
      obtain ⟨hs, h1, h2⟩ := h
      exact ⟨hs, h1.trans e2, h2⟩

section
variable {em : Signal → Client → Client} (ho : EmOk none em) (hf : EmFramed em) (hh : EmHeaders em) (hr : EmRequest em) (he : EmDuring em) (env : ClientEnv)
include he hf hh hr ho

theorem messageComplete_sig {a : Bool} {c : Client} {st : Nat} (h : During a (some st) c) (hi : CInv none c) (hp : a = false → c.responsePending = true) (hs : c.p.status = st) (hst : st ≠ 100) :
    During false (some st) (c.messageComplete em) := by
  rw [messageComplete_eq, if_neg (by rw [hs]; exact hst)]
  refine he _ _ _ _ ?_
  obtain ⟨f1, f2, f3, f4, f5, f6, -⟩ := completing_facts c
  have hlog : c.completing.log = c.log ∨ c.completing.log = c.log ++ [.close] := by
    unfold Client.completing
    dsimp only
    split
    · exact Or.inr rfl
    · split
      · exact Or.inr rfl
      · exact Or.inl rfl
  refine ⟨f2.trans h.parsing, fun hq => ?_, fun hq => ?_, fun _ => ?_⟩
  · have hq : c.completing.responsePending = true := hq
    rw [f3] at hq; cases hq
  · have hq : c.completing.responsePending = true := hq
    rw [f3] at hq; cases hq
  · show Signals (c.completing.log ++ [.finished c.completing.error c.completing.p.status c.completing.d.headers c.completing.d.content]) .idle
    cases hpd : c.responsePending with
    | true =>
      obtain ⟨k1, k2⟩ := h.live hpd
      have hl : AtStage (some st) c.completing := by
        rcases hlog with e | e
        · exact live_same k1 e (by rw [f4]) (by rw [f4]) f5
        · exact live_aside k1 .close trivial (by simp) e (by rw [f4]) (by rw [f4]) f5
      rw [f6, hi.noError hpd]
      exact live_complete hl hst ((congrArg HParser.status f1).trans hs)
    | false =>
      cases a with
      | false => rw [hp rfl] at hpd; cases hpd
      | true =>
        obtain ⟨h2, h3⟩ := h.idle hpd
        rw [f6, h2, f1, f4]
        rcases hlog with e | e
        · rw [e]; exact .again h3
        · rw [e]; exact .again (.other .close trivial (by simp) h3)

theorem headersComplete_sig {c0 : Client} (hl0 : AtStage none c0) (hi0 : CInv none c0) (hp0 : c0.responsePending = true) (ht0 : c0.parsing = true) (hk : c0.p.errno = .ok) :
    ((c0.headersComplete env em).p.errno = .ok → AtStage (some c0.p.status) (c0.headersComplete env em) ∧ Unsaid (some c0.p.status) (c0.headersComplete env em)) ∧
    ((c0.headersComplete env em).p.errno = .paused → SigK (c0.headersComplete env em).p (c0.headersComplete env em)) := by
  unfold Client.headersComplete
  by_cases h100 : c0.p.status = 100
  · rw [if_pos h100, h100]
    exact ⟨fun _ => ⟨hl0.1, fun _ st hs => (Option.some.inj hs).symm⟩, fun h => by rw [hk] at h; cases h⟩
  · rw [if_neg h100]
    have hun : Unsaid (some c0.p.status) c0 ↔ ¬ IsHead c0.request := ⟨fun h hh => h100 (h hh _ rfl), fun h hh => absurd hh h⟩
    have h1 : ∀ a : Bool, (a = false ↔ ¬ IsHead c0.request) → During a (some c0.p.status) (em .headers c0) := by
      intro a ha
      refine he _ _ _ _ ⟨ht0, fun _ => ⟨?_, fun st hst => Option.some.inj hst⟩, fun _ => ha.trans (hun.symm.trans (Unsaid.congr rfl)), fun h => ?_⟩
      · unfold AtStage
        dsimp only
        rw [if_neg h100]
        refine ⟨c0.d.headers, List.prefix_refl _, ?_⟩
        show Signals (c0.log ++ [.headersCompleted c0.p.status c0.d.headers]) (.shown c0.request c0.p.status c0.d.headers c0.d.content)
        rw [hl0.2]
        exact .headers _ _ hl0.1 h100
      · have h : c0.responsePending = false := h
        rw [hp0] at h; cases h
    have hi1 : CInv none (em .headers c0) := ho _ _ (hi0.change (Or.inr ⟨.headersCompleted _ _, trivial, rfl⟩) rfl rfl rfl (Or.inl ⟨rfl, rfl⟩) rfl rfl hi0.gentle)
    have hfr := hf .headers c0 ht0
    have hrq : (em .headers c0).request = c0.request := hr _ c0 ht0
    dsimp only
    generalize em .headers c0 = c1 at h1 hi1 hfr hrq ⊢
    have hst1 : c1.p.status = c0.p.status := by
      rcases hfr.2 with ⟨-, e⟩ | ⟨-, -, e⟩
      · rw [e]
      · rw [e, pause_status]
    have hpd : c1.p.errno = .ok → c1.responsePending = true := by
      intro h
      rcases hfr.2 with ⟨e, -⟩ | ⟨-, -, e⟩
      · rw [e]; exact hp0
      · rw [e, pause_ok hk] at h; cases h
    have hpn : c1.p.errno = .paused → c1.responsePending = false := by
      intro h
      rcases hfr.2 with ⟨-, e⟩ | ⟨-, e, -⟩
      · rw [e, hk] at h; cases h
      · exact e
    split
    · rename_i hhd
      rw [isHead_iff, hrq] at hhd
      have h1 := h1 true ⟨fun h => (by cases h), fun h => absurd hhd h⟩
      have h2 : During true (some c0.p.status) { c1 with p := c1.p.pause } := h1.same rfl rfl rfl rfl rfl (pause_status _) rfl rfl
      have hi2 : CInv none { c1 with p := c1.p.pause } := hi1.change (Or.inl rfl) rfl rfl rfl (Or.inl ⟨rfl, rfl⟩) rfl rfl hi1.gentle
      have hs2 : ({ c1 with p := c1.p.pause } : Client).p.status = c0.p.status := by show c1.p.pause.status = _; rw [pause_status, hst1]
      have hz : ({ c1 with p := c1.p.pause } : Client).p.errno ≠ .ok := by
        show c1.p.pause.errno ≠ .ok
        rcases hfr.2 with ⟨-, e⟩ | ⟨-, -, e⟩
        · rw [e, pause_ok hk]; simp
        · rw [e, pause_pause hk, pause_ok hk]; simp
      generalize ({ c1 with p := c1.p.pause } : Client) = c2 at h2 hi2 hs2 hz ⊢
      have hm := messageComplete_framed hf h2.parsing (by rw [hs2]; exact h100)
      have h3 := messageComplete_sig ho hf hh hr he h2 hi2 (by simp) hs2 h100
      exact ⟨fun h => by rw [hm.2.2] at h; exact absurd h hz, fun _ => h3.k hm.2.1 _⟩
    · rename_i hhd
      rw [isHead_iff, hrq] at hhd
      have h1 := h1 false ⟨fun _ => hhd, fun _ => rfl⟩
      split
      · exact ⟨fun h => ⟨live_same (h1.live (hpd h)).1 rfl rfl rfl rfl, ((h1.told (hpd h)).1 rfl).same rfl⟩,
          fun h => (h1.same (c' := { c1 with contentDecoder := some [] }) rfl rfl rfl rfl rfl rfl rfl rfl).k (hpn h) _⟩
      · exact ⟨fun h => ⟨(h1.live (hpd h)).1, (h1.told (hpd h)).1 rfl⟩, fun h => h1.k (hpn h) _⟩

theorem clientCb_phased : Phased (clientCb env em) SigJ SigK := by
  intro k p c a a' hk hp hm ⟨hc, hl, hu⟩
  have hci := clientCb_inv ho hf hh env k p c hk hc
  have hlift : ∀ {x : HParser × Client}, x = clientCb env em k p c → (x.1.errno = .ok → AtStage a' x.2 ∧ Unsaid a' x.2) → (x.1.errno = .paused → SigK x.1 x.2) →
      ((clientCb env em k p c).1.errno = .ok → SigJ a' (clientCb env em k p c).2) ∧ ((clientCb env em k p c).1.errno = .paused → SigK (clientCb env em k p c).1 (clientCb env em k p c).2) := by
    rintro x rfl h1 h2
    exact ⟨fun h => ⟨(hci.2 (by rw [h]; simp)).2, h1 h⟩, h2⟩
  cases hm with
  | begin hn => exact hlift rfl (fun _ => ⟨⟨hl.1, rfl⟩, fun _ st hs => by cases hs⟩) (fun h => absurd (hk.symm.trans h) (by simp))
  | field bs =>
    refine hlift rfl (fun _ => ?_) (fun h => absurd (hk.symm.trans h) (by simp))
    exact ⟨live_grow hl rfl (push_prefix c.d).1 (push_prefix c.d).2 rfl, hu.same rfl⟩
  | value bs => exact hlift rfl (fun _ => ⟨live_same hl rfl rfl rfl rfl, hu.same rfl⟩) (fun h => absurd (hk.symm.trans h) (by simp))
  | headers hs =>
    have := headersComplete_sig ho hf hh hr he env (c0 := { c with p := p, parsing := true, d := c.d.push }) (live_grow hl rfl (push_prefix c.d).1 (push_prefix c.d).2 rfl)
      (hc.1.change (Or.inl rfl) rfl rfl rfl (Or.inl ⟨rfl, rfl⟩) rfl rfl hc.1.gentle) hc.2.2 rfl hk
    exact hlift rfl this.1 this.2
  | body bs hs =>
    have h0 : During false (some p.status) (Client.messageContent env em bs { c with p := p, parsing := true }) := by
      rw [messageContent_eq]
      obtain ⟨ct, dec, e⟩ := storing_facts env bs { c with p := p, parsing := true }
      rw [e]
      refine he _ _ _ _ ⟨rfl, fun _ => ⟨?_, fun st hst => Option.some.inj hst⟩, fun _ => ⟨fun _ => hu.same rfl, fun _ => rfl⟩, fun h => ?_⟩
      · unfold AtStage at hl ⊢
        dsimp only at hl ⊢
        split at hl
        · rename_i h1; rw [if_pos h1]; exact .interim _ hl
        · rename_i h1; rw [if_neg h1]
          obtain ⟨hs', k1, k2⟩ := hl
          exact ⟨hs', k1, .content ct k2⟩
      · have h : c.responsePending = false := h
        rw [hc.2.2] at h; cases h
    have hfr := messageContent_p env hf (c := { c with p := p, parsing := true }) bs rfl
    refine hlift rfl (x := ((Client.messageContent env em bs { c with p := p, parsing := true }).p, Client.messageContent env em bs { c with p := p, parsing := true })) ?_ ?_
    · intro h
      have hpd : (Client.messageContent env em bs { c with p := p, parsing := true }).responsePending = true := ?_
      · exact ⟨(h0.live hpd).1, (h0.told hpd).1 rfl⟩
      rcases hfr.2 with ⟨e, -⟩ | ⟨-, -, e⟩
      · rw [e]; exact hc.2.2
      · dsimp only at h
        rw [e] at h
        have h : p.pause.errno = .ok := h
        rw [pause_ok hk] at h; cases h
    · intro h
      refine h0.k ?_ _
      rcases hfr.2 with ⟨-, e⟩ | ⟨-, e, -⟩
      · dsimp only at h
        rw [e] at h
        have h : p.errno = .paused := h
        rw [hk] at h; cases h
      · exact e
  | complete =>
    have hdone := (clientCb_tame env hf).done p c hk
    refine ⟨fun h => absurd h hdone, fun _ => ?_⟩
    show SigK (Client.messageComplete em { c with p := p, parsing := true }).p.pause { (Client.messageComplete em { c with p := p, parsing := true }) with p := (Client.messageComplete em { c with p := p, parsing := true }).p.pause }
    by_cases hs : p.status = 100
    · rw [messageComplete_eq, if_pos hs]
      rw [hs] at hl
      have hcl : ∀ c0 : Client, c0.parsing = true → c0.clear = { c0 with p := c0.p.init.pause, d := { c0.d with headers := [], content := [] } } := by
        intro c0 h
        unfold Client.clear
        dsimp only
        rw [if_pos h]
      rw [hcl _ rfl]
      refine ⟨fun _ => ⟨?_, ?_⟩, fun h => ?_⟩
      · trivial
      · exact ⟨⟨hl, rfl⟩, fun _ st hs => by cases hs⟩
      · have h : c.responsePending = false := h
        rw [hc.2.2] at h; cases h
    · have hd : During false (some p.status) { c with p := p, parsing := true } :=
        ⟨rfl, fun _ => ⟨live_same hl rfl rfl rfl rfl, fun st hst => Option.some.inj hst⟩, fun _ => ⟨fun _ => hu.same rfl, fun _ => rfl⟩, fun h => by have h : c.responsePending = false := h; rw [hc.2.2] at h; cases h⟩
      have hi0 : CInv none { c with p := p, parsing := true } := hc.1.change (Or.inl rfl) rfl rfl rfl (Or.inl ⟨rfl, rfl⟩) rfl rfl hc.1.gentle
      have h3 := messageComplete_sig ho hf hh hr he hd hi0 (fun _ => hc.2.2) rfl hs
      have hm := messageComplete_framed hf (c := { c with p := p, parsing := true }) rfl hs
      exact (h3.same (c' := { (Client.messageComplete em { c with p := p, parsing := true }) with p := (Client.messageComplete em { c with p := p, parsing := true }).p.pause }) rfl rfl rfl rfl rfl (pause_status _) rfl rfl).k hm.2.1 _

/-! ## Input -/

theorem inject_sig {c : Client} (hi : CInv none c) (hs : Safe c.p) (hk : c.p.errno = .ok) (hp : c.responsePending = true) (hph : c.p.Phase) (hl : AtStage c.p.seen c) (hu : Unsaid c.p.seen c) (data : Bytes) :
    ((c.inject env em data).1.hasError = false → Between (c.inject env em data).1) ∧
    ((c.inject env em data).1.hasError = true → ∃ o, AtStage o (c.inject env em data).1 ∧ ∀ st, o = some st → (c.inject env em data).1.p.status = st) := by
  have hc : CallsOk none { c with parsing := true } := ⟨hi.change (Or.inl rfl) rfl rfl rfl (Or.inl ⟨rfl, rfl⟩) rfl rfl hi.gentle, rfl, hp⟩
  have h := execute_phase (clientCb_tame env hf) (clientCb_phased ho hf hh hr he env) (s := { c with parsing := true }) hs hph (by rw [hk]; simp) ⟨hc, live_same hl rfl rfl rfl rfl, hu.same rfl⟩ data
  unfold Client.inject
  dsimp only
  generalize execute (clientCb env em) c.p { c with parsing := true } data = x at h ⊢
  obtain ⟨h1, h2, h3⟩ := h
  have hu : ∀ q : HParser, ({ q with errno := .ok } : HParser).seen = q.seen := fun q => rfl
  unfold Client.hasError
  dsimp only
  by_cases e1 : x.1.errno = .paused
  · rw [if_pos e1]
    refine ⟨fun _ => ⟨rfl, fun hq => ?_, fun hq => (h1 e1).2 hq⟩, fun h => by cases h⟩
    obtain ⟨k1, k2, k3⟩ := (h1 e1).1 hq
    exact ⟨k1, live_same k2 rfl rfl rfl rfl, k3.same rfl⟩
  · rw [if_neg e1]
    by_cases e2 : x.1.errno = .ok
    · obtain ⟨k1, k2⟩ := h2 e2
      refine ⟨fun _ => ⟨rfl, fun hq => ⟨k1, live_same k2.2.1 rfl rfl rfl rfl, k2.2.2.same rfl⟩, fun hq => ?_⟩, fun h => by simp [e2] at h⟩
      have hq : x.2.1.responsePending = false := hq
      rw [k2.1.2.2] at hq; cases hq
    · refine ⟨fun h => by simp [e1, e2] at h, fun _ => ?_⟩
      obtain ⟨o, k1, k2⟩ := h3 e1
      refine ⟨o, live_same k2.2.1 rfl rfl rfl rfl, fun st hst => ?_⟩
      rcases k1 with e | e
      · rw [e] at hst; cases hst
      · rw [e] at hst; exact Option.some.inj hst

end

/-- What holds between the inputs. -/
structure Sig (c : Client) : Prop where
  inv : CInv none c
  top : Top c
  btw : Between c

section
variable {em : Signal → Client → Client} (ho : EmOk none em) (hf : EmFramed em) (hh : EmHeaders em) (hr : EmRequest em) (he : EmDuring em) (ht : EmTop em) (hw : EmBetween em) (env : ClientEnv)
include ho hf hh hr he ht hw

theorem receive_sig {c : Client} (h : Sig c) (hp : c.responsePending = true) (data : Bytes) : Between (c.receive env em data) := by
  obtain ⟨hi, htop, hbt⟩ := h
  obtain ⟨hph, hl, hu⟩ := hbt.live hp
  unfold Client.receive
  dsimp only
  have h1 := inject_sig ho hf hh hr he env hi htop.safe (htop.pending hp) hp hph hl hu data
  have h1i := hi.inject ho hf hh env hp data
  have h1s := inject_safe' hf env htop.safe data
  generalize (c.inject env em data).2 = n
  generalize (c.inject env em data).1 = c1 at h1 h1i h1s ⊢
  generalize hc2 : (if c1.responsePending then _ else _ : Client) = c2
  have h2 : Between c2 := by
    subst hc2
    split
    · rename_i hp1
      generalize hc3 : (if !c1.hasError && decide (n < data.length) then (c1.inject env em (data.drop n)).1 else c1 : Client) = c3
      have h3 : (c3.hasError = false → Between c3) ∧ (c3.hasError = true → ∃ o, AtStage o c3 ∧ ∀ st, o = some st → c3.p.status = st) ∧ c3.parsing = false := by
        subst hc3
        split
        · rename_i hne
          simp only [Bool.and_eq_true, Bool.not_eq_true'] at hne
          have hbt1 := h1.1 hne.1
          have hk1 : c1.p.errno = .ok := by
            have := hne.1
            unfold Client.hasError at this
            simp at this
            exact Decidable.byContradiction fun e => h1s.2.2 (this e)
          obtain ⟨hph1, hl1, hu1⟩ := hbt1.live hp1
          have := inject_sig ho hf hh hr he env h1i.1 h1s.1 hk1 hp1 hph1 hl1 hu1 (data.drop n)
          exact ⟨this.1, this.2, (inject_safe' hf env h1s.1 (data.drop n)).2.1⟩
        · exact ⟨h1.1, h1.2, h1s.2.1⟩
      split
      · rename_i herr
        obtain ⟨o, k1, k2⟩ := h3.2.1 herr
        refine hw _ _ ⟨h3.2.2, by rintro ⟨⟩, fun _ => ?_⟩
        exact live_failed (c := { (c3.add .close) with sock := c3.sock.close }) (live_aside k1 .close trivial (by simp) rfl rfl rfl rfl) k2 .responseInvalid (by simp) (because_close _ (by simp)) (by simp)
      · rename_i herr
        exact h3.1 (by simpa using herr)
    · rename_i hp1
      have hne : c1.hasError = false := by
        cases hx : c1.hasError with
        | false => rfl
        | true => exact absurd (h1i.2 hx) hp1
      exact h1.1 hne
  split
  · exact makeRequest_between hw (c := { c2 with pendingRequest := {} }) (h2.same rfl rfl rfl rfl rfl rfl rfl) _
  · exact h2

theorem readyRead_sig {c : Client} (h : Sig c) : Between (c.readyRead env em) := by
  unfold Client.readyRead
  split
  · exact h.btw.aside .close trivial (by simp) rfl rfl rfl rfl rfl rfl rfl
  · rename_i hp
    have hp : c.responsePending = true := by simpa using hp
    split
    · exact h.btw
    · dsimp only
      generalize (if c.sock.readBufferSize > 0 then _ else _ : Nat) = n
      split
      · exact h.btw
      · refine receive_sig ho hf hh hr he ht hw env (c := { c with sock := { c.sock with rx := c.sock.rx.drop _ } }) ⟨?_, ?_, ?_⟩ hp _
        · exact h.inv.change (Or.inl rfl) rfl rfl rfl (Or.inl ⟨rfl, rfl⟩) rfl rfl h.inv.gentle
        · exact h.top.same rfl rfl id
        · exact h.btw.same rfl rfl rfl rfl rfl rfl rfl

end

theorem Sig.step (env : ClientEnv) (fuel : Nat) {c : Client} (h : Sig c) (i : CInput) :
    Sig (c.step env fuel i) := by
  refine ⟨h.inv.step env fuel i (by rintro ⟨⟩), h.top.step env fuel i, ?_⟩
  have hw := emit_between env fuel
  have hread : ∀ {c : Client}, Sig c → Between (c.readyRead env (Client.emit env fuel)) := fun h =>
    readyRead_sig (emit_ok none env fuel) (emit_framed env fuel) (emit_headers env fuel) (emit_request env fuel) (emit_during env fuel) (emit_top env fuel) hw env h
  cases i with
  | call u => exact call_between hw env h.btw u
  | connected =>
    show Between (if c.sock.state = .connecting then { c with sock := { c.sock with state := .connected } }.sendRequest else c)
    split
    · exact sendRequest_between (c := { c with sock := { c.sock with state := .connected } }) (h.btw.same rfl rfl rfl rfl rfl rfl rfl)
    · exact h.btw
  | error rc => exact deviceError_between hw h.btw rc
  | arrive bs =>
    show Between (if c.sock.state = .connected ∨ c.sock.state = .closing then { c with sock := { c.sock with rx := c.sock.rx ++ bs } } else c)
    split
    · exact h.btw.same rfl rfl rfl rfl rfl rfl rfl
    · exact h.btw
  | readyRead => exact hread h
  | disconnected => exact h.btw.same rfl rfl rfl rfl rfl rfl rfl
  | unsent u => exact h.btw.same rfl rfl rfl rfl rfl rfl rfl
  | timeout =>
    show Between (if c.timers = 0 then c else { c with timers := c.timers - 1 }.readyRead env (Client.emit env fuel))
    split
    · exact h.btw
    · exact hread (c := { c with timers := c.timers - 1 }) ⟨h.inv.change (Or.inl rfl) rfl rfl rfl (Or.inl ⟨rfl, rfl⟩) rfl rfl h.inv.gentle, h.top.same rfl rfl id, h.btw.same rfl rfl rfl rfl rfl rfl rfl⟩
  | tick ms => exact h.btw.same rfl rfl rfl rfl rfl rfl rfl

theorem Sig.run (env : ClientEnv) (fuel : Nat) : ∀ (is : List CInput) {c : Client}, Sig c → Sig (c.run env fuel is)
  | [], _, h => h
  | i :: is, _, h => Sig.run env fuel is (h.step env fuel i)

theorem new_sig (onH onC onF : List (List UserCall)) (onK : List SockReply) : Sig (Client.new onH onC onF onK) :=
  ⟨new_inv none onH onC onF onK trivial, new_top onH onC onF onK, rfl, by rintro ⟨⟩, fun _ => .nil⟩

/-! ## When requests end twice -/

/-- The request that is not finished, and whether its response has been announced. -/
def atWork (l : List CEv) : Option (ClientRequest × Bool) :=
  l.foldl (fun x e => match e with
    | .accepted r => some (r, false)
    | .headersCompleted _ _ => x.map fun y => (y.1, true)
    | .finished .. => none
    | _ => x) none

theorem atWork_snoc (l : List CEv) (e : CEv) : atWork (l ++ [e]) = match e with
    | .accepted r => some (r, false)
    | .headersCompleted _ _ => (atWork l).map fun y => (y.1, true)
    | .finished .. => none
    | _ => atWork l := by
  unfold atWork; rw [List.foldl_append]; rfl

def Spec.Stage.work : Stage → Option (ClientRequest × Bool)
  | .waiting r => some (r, false)
  | .shown r _ _ _ => some (r, true)
  | _ => none

theorem signals_work {l : List CEv} {s : Stage} (h : Signals l s) : atWork l = s.work := by
  induction h with
  | nil => rfl
  | accepted r _ ih => rw [atWork_snoc]; rfl
  | interim ct _ ih => rw [atWork_snoc]; exact ih
  | headers st hs _ _ ih => rw [atWork_snoc]; dsimp only; rw [ih]; rfl
  | content more _ ih => rw [atWork_snoc]; exact ih
  | consumed _ ih => rw [atWork_snoc]; exact ih
  | complete hs' _ _ ih => rw [atWork_snoc]; rfl
  | failed e st hs ct _ _ _ _ _ ih => rw [atWork_snoc]; rfl
  | abortedHead st hs ct _ _ _ _ ih => rw [atWork_snoc]; rfl
  | consumedAgain _ ih => rw [atWork_snoc]; exact ih
  | again _ ih => rw [atWork_snoc]; rfl
  | other e he _ _ ih =>
    rw [atWork_snoc]
    cases e <;> first | exact ih | exact absurd he id

/-- Events that do not end a request or begin one. -/
def Amid (l : List CEv) : Prop := ∀ e ∈ l, (∀ r, e ≠ .accepted r) ∧ ∀ x st hs ct, e ≠ .finished x st hs ct

theorem amid_snoc {l : List CEv} {e : CEv} (h : Amid l) (he : (∀ r, e ≠ .accepted r) ∧ ∀ x st hs ct, e ≠ .finished x st hs ct) : Amid (l ++ [e]) := by
  intro x hx
  rcases List.mem_append.1 hx with hx | hx
  · exact h x hx
  · rw [List.mem_singleton.1 hx]; exact he

theorem work_within : ∀ (m l : List CEv) (r : ClientRequest), Amid m → atWork l = some (r, true) → atWork (l ++ m) = some (r, true)
  | [], l, r, _, h => by rw [List.append_nil]; exact h
  | e :: m, l, r, hw, h => by
    rw [show l ++ e :: m = (l ++ [e]) ++ m by simp]
    refine work_within m _ r (fun x hx => hw x (by simp [hx])) ?_
    rw [atWork_snoc]
    have := hw e (by simp)
    cases e with
    | accepted r => exact absurd rfl (this.1 r)
    | finished x st hs ct => exact absurd rfl (this.2 x st hs ct)
    | headersCompleted st hs => dsimp only; rw [h]; rfl
    | _ => exact h

theorem work_some : ∀ (m l : List CEv) (r : ClientRequest), Amid m → (∃ b, atWork l = some (r, b)) → ∃ b, atWork (l ++ m) = some (r, b)
  | [], l, r, _, h => by rw [List.append_nil]; exact h
  | e :: m, l, r, hw, ⟨b, h⟩ => by
    rw [show l ++ e :: m = (l ++ [e]) ++ m by simp]
    refine work_some m _ r (fun x hx => hw x (by simp [hx])) ?_
    rw [atWork_snoc]
    have := hw e (by simp)
    cases e with
    | accepted r => exact absurd rfl (this.1 r)
    | finished x st hs ct => exact absurd rfl (this.2 x st hs ct)
    | headersCompleted st hs => exact ⟨true, by dsimp only; rw [h]; rfl⟩
    | _ => exact ⟨b, h⟩

theorem headAnnounced_work {l : List CEv} (h : HeadAnnounced l) : ∃ r, IsHead r ∧ atWork l = some (r, true) := by
  obtain ⟨l₁, r, l₂, st, hs, l₃, rfl, hr, hw⟩ := h
  have hw : Amid (l₂ ++ l₃) := hw
  refine ⟨r, hr, ?_⟩
  obtain ⟨b, hb⟩ := work_some l₂ (l₁ ++ [.accepted r]) r (fun x hx => hw x (by simp [hx])) ⟨false, by rw [atWork_snoc]⟩
  have : atWork (l₁ ++ .accepted r :: l₂ ++ [.headersCompleted st hs]) = some (r, true) := by
    rw [atWork_snoc]
    dsimp only
    rw [show l₁ ++ CEv.accepted r :: l₂ = (l₁ ++ [.accepted r]) ++ l₂ by simp, hb]
    rfl
  have := work_within l₃ _ r (fun x hx => hw x (by simp [hx])) this
  simpa using this

/-- What the log looks like while a request is at work. -/
def WorkForm (l : List CEv) : Option (ClientRequest × Bool) → Prop
  | none => True
  | some (r, false) => ∃ l₁ l₂, l = l₁ ++ .accepted r :: l₂ ∧ Amid l₂
  | some (r, true) => ∃ l₁ l₂ st hs l₃, l = l₁ ++ .accepted r :: l₂ ++ .headersCompleted st hs :: l₃ ∧ Amid (l₂ ++ l₃)

theorem workForm_plain {l : List CEv} {x : Option (ClientRequest × Bool)} {e : CEv} (he : (∀ r, e ≠ .accepted r) ∧ ∀ x st hs ct, e ≠ .finished x st hs ct) (h : WorkForm l x) : WorkForm (l ++ [e]) x := by
  match x with
  | none => trivial
  | some (r, false) =>
    obtain ⟨l₁, l₂, rfl, h⟩ := h
    exact ⟨l₁, l₂ ++ [e], by simp, amid_snoc h he⟩
  | some (r, true) =>
    obtain ⟨l₁, l₂, st, hs, l₃, rfl, h⟩ := h
    exact ⟨l₁, l₂, st, hs, l₃ ++ [e], by simp, by rw [← List.append_assoc]; exact amid_snoc h he⟩

theorem signals_form {l : List CEv} {s : Stage} (h : Signals l s) : WorkForm l s.work := by
  induction h with
  | nil => trivial
  | accepted r _ ih => exact ⟨_, [], rfl, by intro e he; cases he⟩
  | interim ct _ ih => exact workForm_plain ⟨by simp, by simp⟩ ih
  | headers st hs _ _ ih =>
    obtain ⟨l₁, l₂, rfl, h⟩ := ih
    exact ⟨l₁, l₂, st, hs, [], rfl, by simpa using h⟩
  | content more _ ih => exact workForm_plain ⟨by simp, by simp⟩ ih
  | consumed _ ih => exact workForm_plain ⟨by simp, by simp⟩ ih
  | complete hs' _ _ ih => trivial
  | failed e st hs ct _ _ _ _ _ ih => trivial
  | abortedHead st hs ct _ _ _ _ ih => trivial
  | consumedAgain _ ih => trivial
  | again _ ih => trivial
  | other e he _ _ ih =>
    refine workForm_plain ⟨?_, ?_⟩ ih
    · rintro r rfl; exact he
    · rintro _ _ _ _ rfl; exact he

theorem snoc_eq {α : Type} {a b : List α} {x y : α} (h : a ++ [x] = b ++ [y]) : a = b ∧ x = y := by
  obtain ⟨h1, h2⟩ := List.append_inj' h rfl
  exact ⟨h1, by injection h2⟩

theorem headAborted_mono {l : List CEv} (e : CEv) (h : HeadAborted l) : HeadAborted (l ++ [e]) := by
  obtain ⟨k, st, hs, ct, rest, h1, rfl⟩ := h
  exact ⟨k, st, hs, ct, rest ++ [e], h1, by simp⟩

/-- It happens at the moment the second `finished()` becomes due. -/
theorem headAborted_snoc {l : List CEv} {e : CEv} (h : HeadAborted (l ++ [e])) : HeadAborted l ∨ ∃ k st hs ct, e = .finished .aborted st hs ct ∧ l = k ++ [.abort] ∧ HeadAnnounced k := by
  obtain ⟨k, st, hs, ct, rest, h1, h2⟩ := h
  rcases List.eq_nil_or_concat rest with rfl | ⟨rest, y, rfl⟩
  · obtain ⟨h3, h4⟩ := snoc_eq (show l ++ [e] = (k ++ [.abort]) ++ [.finished .aborted st hs ct] by rw [h2]; simp)
    exact Or.inr ⟨k, st, hs, ct, h4, h3, h1⟩
  · obtain ⟨h3, -⟩ := snoc_eq (show l ++ [e] = (k ++ .abort :: .finished .aborted st hs ct :: rest) ++ [y] by rw [h2]; simp)
    exact Or.inl ⟨k, st, hs, ct, rest, h1, h3⟩

/-- The stage `s` and whether a HEAD request has been aborted tell whether the log is paired. -/
def PairForm (l : List CEv) (s : Stage) : Prop :=
  match s with
  | .again _ _ _ => HeadAborted l ∧ ∀ w, Paired l w → w = false
  | s => (¬ HeadAborted l → Paired l s.work.isSome ∧ Reasons l) ∧ (HeadAborted l → ∀ w, ¬ Paired l w)

theorem paired_last {l : List CEv} {e : CEv} {w : Bool} (h : Paired (l ++ [e]) w) :
    (∃ r, e = .accepted r ∧ Paired l false ∧ w = true) ∨ (∃ x st hs ct, e = .finished x st hs ct ∧ Paired l true ∧ w = false) ∨
    ((∀ r, e ≠ .accepted r) ∧ (∀ x st hs ct, e ≠ .finished x st hs ct) ∧ Paired l w) := by
  generalize hk : l ++ [e] = k at h
  cases h with
  | nil => simp at hk
  | accepted r h => obtain ⟨rfl, rfl⟩ := snoc_eq hk; exact Or.inl ⟨r, rfl, h, rfl⟩
  | finished x st hs ct h => obtain ⟨rfl, rfl⟩ := snoc_eq hk; exact Or.inr (Or.inl ⟨x, st, hs, ct, rfl, h, rfl⟩)
  | other x h1 h2 h => obtain ⟨rfl, rfl⟩ := snoc_eq hk; exact Or.inr (Or.inr ⟨h1, h2, h⟩)

theorem pairForm_plain {l : List CEv} {s s' : Stage} {e : CEv} (hne : ∀ st hs ct, s ≠ .again st hs ct) (hne' : ∀ st hs ct, s' ≠ .again st hs ct) (hw : s'.work.isSome = s.work.isSome)
    (he : (∀ r, e ≠ .accepted r) ∧ ∀ x st hs ct, e ≠ .finished x st hs ct) (h : PairForm l s) : PairForm (l ++ [e]) s' := by
  have h : (¬ HeadAborted l → Paired l s.work.isSome ∧ Reasons l) ∧ (HeadAborted l → ∀ w, ¬ Paired l w) := by
    cases s with
    | again st hs ct => exact absurd rfl (hne st hs ct)
    | _ => exact h
  have h' : (¬ HeadAborted (l ++ [e]) → Paired (l ++ [e]) s'.work.isSome ∧ Reasons (l ++ [e])) ∧ (HeadAborted (l ++ [e]) → ∀ w, ¬ Paired (l ++ [e]) w) := by
    refine ⟨fun hn => ?_, fun ha w hp => ?_⟩
    · obtain ⟨h1, h2⟩ := h.1 fun hh => hn (headAborted_mono e hh)
      rw [hw]
      exact ⟨.other e he.1 he.2 h1, reasons_plain e he.2 h2⟩
    · rcases headAborted_snoc ha with ha | ⟨_, st, hs, ct, rfl, -⟩
      · rcases paired_last hp with ⟨r, rfl, -⟩ | ⟨x, st, hs, ct, rfl, -⟩ | ⟨-, -, hp⟩
        · exact absurd rfl (he.1 r)
        · exact absurd rfl (he.2 x st hs ct)
        · exact h.2 ha w hp
      · exact absurd rfl (he.2 _ st hs ct)
  cases s' with
  | again st hs ct => exact absurd rfl (hne' st hs ct)
  | _ => exact h'

/-- An end that is not that of a HEAD request aborted too late. -/
theorem pairForm_end {l : List CEv} {s : Stage} {x : CError} {st : Nat} {hs : Headers} {ct : Bytes} (hsome : s.work.isSome = true) (hsig : Signals l s) (hx : x ≠ .noError → Because l x)
    (hnot : ¬ (s.HeadShown ∧ x = .aborted)) (h : PairForm l s) : PairForm (l ++ [.finished x st hs ct]) .idle := by
  have h : (¬ HeadAborted l → Paired l s.work.isSome ∧ Reasons l) ∧ (HeadAborted l → ∀ w, ¬ Paired l w) := by
    cases s with
    | again st hs ct => cases hsome
    | _ => exact h
  refine ⟨fun hn => ?_, fun ha w hp => ?_⟩
  · obtain ⟨h1, h2⟩ := h.1 fun hh => hn (headAborted_mono _ hh)
    rw [hsome] at h1
    refine ⟨.finished _ _ _ _ h1, reasons_snoc _ h2 ?_⟩
    rintro _ _ _ _ ⟨⟩ hx1
    exact hx hx1
  · rcases headAborted_snoc ha with ha | ⟨k, _, _, _, he, hl, hk⟩
    · rcases paired_last hp with ⟨r, he, -⟩ | ⟨_, _, _, _, -, hp, -⟩ | ⟨-, he, -⟩
      · cases he
      · exact h.2 ha _ hp
      · exact absurd rfl (he x st hs ct)
    · obtain ⟨r, hr, hwk⟩ := headAnnounced_work hk
      have hwl : atWork l = some (r, true) := by rw [hl, atWork_snoc]; exact hwk
      rw [signals_work hsig] at hwl
      have hsh : s.HeadShown := by
        cases s with
        | shown r' _ _ _ =>
          have : r' = r := by cases hwl; rfl
          subst this
          exact hr
        | _ => cases hwl
      refine hnot ⟨hsh, ?_⟩
      injection he

theorem pairForm_of {l : List CEv} {s : Stage} (h : Signals l s) : PairForm l s := by
  have nag : ∀ {s : Stage}, s.work.isSome = true → ∀ st hs ct, s ≠ .again st hs ct := by rintro _ h _ _ _ rfl; cases h
  induction h with
  | nil =>
    refine ⟨fun _ => ⟨.nil, by intro l₁ e st hs ct l₂ h; simp at h⟩, ?_⟩
    rintro ⟨k, st, hs, ct, rest, -, h⟩
    simp at h
  | accepted r _ ih =>
    refine ⟨fun hn => ?_, fun ha w hp => ?_⟩
    · obtain ⟨h1, h2⟩ := ih.1 fun hh => hn (headAborted_mono _ hh)
      exact ⟨.accepted r h1, reasons_plain _ (by simp) h2⟩
    · rcases headAborted_snoc ha with ha | ⟨_, _, _, _, he, -⟩
      · rcases paired_last hp with ⟨_, -, hp, -⟩ | ⟨_, _, _, _, he, -⟩ | ⟨he, -⟩
        · exact ih.2 ha _ hp
        · cases he
        · exact absurd rfl (he r)
      · cases he
  | interim ct _ ih => exact pairForm_plain (nag rfl) (nag rfl) rfl ⟨by simp, by simp⟩ ih
  | headers st hs _ _ ih => exact pairForm_plain (nag rfl) (nag rfl) rfl ⟨by simp, by simp⟩ ih
  | content more _ ih => exact pairForm_plain (nag rfl) (nag rfl) rfl ⟨by simp, by simp⟩ ih
  | consumed _ ih => exact pairForm_plain (nag rfl) (nag rfl) rfl ⟨by simp, by simp⟩ ih
  | complete hs' hsig _ ih => exact pairForm_end rfl hsig (by simp) (by simp) ih
  | failed e st hs ct hsig hends _ hb hnot ih =>
    refine pairForm_end ?_ hsig (fun _ => hb) hnot ih
    cases ‹Stage› with
    | waiting r => rfl
    | shown r _ _ _ => rfl
    | _ => exact absurd hends id
  | @abortedHead l s st hs ct hsig hsh hends hb ih =>
    cases s with
    | shown r st0 hs0 ct0 =>
      obtain ⟨l₁, l₂, st', hs', l₃, hl, hw⟩ := signals_form hsig
      obtain ⟨k, hk⟩ := show ∃ k, l = k ++ [.abort] from hb
      have hann : HeadAnnounced k := by
        rcases List.eq_nil_or_concat l₃ with rfl | ⟨l₃, y, rfl⟩
        · rw [hk] at hl
          exact absurd (snoc_eq hl).2 (by simp)
        · refine ⟨l₁, r, l₂, st', hs', l₃, ?_, hsh, fun e he => hw e ?_⟩
          · rw [hk] at hl
            exact (snoc_eq (hl.trans (by simp : _ = (l₁ ++ .accepted r :: l₂ ++ .headersCompleted st' hs' :: l₃) ++ [y]))).1
          · simp at he ⊢
            rcases he with he | he
            · exact Or.inl he
            · exact Or.inr (Or.inl he)
      refine ⟨⟨k, st, hs, ct, [], hann, by rw [hk]; simp⟩, fun w hp => ?_⟩
      rcases paired_last hp with ⟨_, he, -⟩ | ⟨_, _, _, _, -, -, h⟩ | ⟨-, he, -⟩
      · cases he
      · exact h
      · exact absurd rfl (he _ st hs ct)
    | _ => exact absurd hsh id
  | consumedAgain _ ih =>
    refine ⟨headAborted_mono _ ih.1, fun w hp => ?_⟩
    rcases paired_last hp with ⟨_, he, -⟩ | ⟨_, _, _, _, he, -⟩ | ⟨-, -, hp⟩
    · cases he
    · cases he
    · exact ih.2 w hp
  | again _ ih =>
    refine ⟨fun hn => absurd (headAborted_mono _ ih.1) hn, fun _ w hp => ?_⟩
    rcases paired_last hp with ⟨_, he, -⟩ | ⟨_, _, _, _, -, hp, -⟩ | ⟨-, he, -⟩
    · cases he
    · cases ih.2 true hp
    · exact absurd rfl (he _ _ _ _)
  | @other l s e he _ _ ih =>
    have he' : (∀ r, e ≠ .accepted r) ∧ ∀ x st hs ct, e ≠ .finished x st hs ct := ⟨by rintro r rfl; exact he, by rintro _ _ _ _ rfl; exact he⟩
    cases s with
    | again st hs ct =>
      refine ⟨headAborted_mono _ ih.1, fun w hp => ?_⟩
      rcases paired_last hp with ⟨_, rfl, -⟩ | ⟨_, _, _, _, rfl, -⟩ | ⟨-, -, hp⟩
      · exact absurd he id
      · exact absurd he id
      · exact ih.2 w hp
    | _ => exact pairForm_plain (by simp) (by simp) rfl he' ih

end Pillow
