import Verif.Lemmas.ClientTold
/-!
# A client whose content is taken as soon as it is announced
-/
namespace Pillow
open Spec

/-- Nothing is announced. -/
structure Hushed (c c' : Client) : Prop where
  onContent : c'.onContent = c.onContent
  log : ∃ l, c'.log = c.log ++ l ∧ ∀ e ∈ l, e.Still

theorem Hushed.refl (c : Client) : Hushed c c := ⟨rfl, [], by simp, by simp⟩

theorem Hushed.trans {a b c : Client} (h : Hushed a b) (k : Hushed b c) : Hushed a c := by
  obtain ⟨l, h1, h2⟩ := h.log
  obtain ⟨m, k1, k2⟩ := k.log
  exact ⟨k.onContent.trans h.onContent, l ++ m, by rw [k1, h1, List.append_assoc], fun e he => (List.mem_append.1 he).elim (h2 e) (k2 e)⟩

theorem Hushed.same {a b c : Client} (h : Hushed a b) (e1 : c.onContent = b.onContent) (e2 : c.log = b.log) : Hushed a c := ⟨e1.trans h.onContent, by rw [e2]; exact h.log⟩

theorem Hushed.more {a b c : Client} (h : Hushed a b) {e : CEv} (e1 : c.onContent = b.onContent) (e2 : c.log = b.log ++ [e]) (he : e.Still) : Hushed a c :=
  h.trans ⟨e1, [e], e2, fun x hx => by rw [List.mem_singleton.1 hx]; exact he⟩

theorem Hushed.self {c c' : Client} (e1 : c'.onContent = c.onContent) (e2 : c'.log = c.log) : Hushed c c' := (Hushed.refl c).same e1 e2
theorem Hushed.one {c c' : Client} {e : CEv} (e1 : c'.onContent = c.onContent) (e2 : c'.log = c.log ++ [e]) (he : e.Still) : Hushed c c' := (Hushed.refl c).more e1 e2 he

def EmHushed (em : Signal → Client → Client) : Prop := ∀ s c, s ≠ .content → Hushed c (em s c)

theorem sendRequest_hushed (c : Client) : Hushed c c.sendRequest := by
  unfold Client.sendRequest
  split
  · exact Hushed.refl c
  · dsimp only
    split <;> exact Hushed.one (e := .write _ _) rfl rfl trivial

section
variable {em : Signal → Client → Client} (he : EmHushed em)
include he

theorem deviceError_hushed (c : Client) (rc : Bool) : Hushed c (c.deviceError em rc) := by
  unfold Client.deviceError
  split
  · exact Hushed.refl c
  · refine Hushed.trans ?_ (he .finished _ (by simp))
    exact Hushed.one (e := .close) rfl rfl trivial

theorem connectReply_hushed (c : Client) : Hushed c (c.connectReply em) := by
  unfold Client.connectReply
  dsimp only
  split
  · split
    · exact Hushed.self rfl rfl
    · exact Hushed.trans (b := { { c with onConnect := c.onConnect.tail } with sock := { c.sock with state := .connected } }) (Hushed.self rfl rfl) (sendRequest_hushed _)
    · exact Hushed.trans (b := { c with onConnect := c.onConnect.tail }) (Hushed.self rfl rfl) (deviceError_hushed he _ _)
  · exact Hushed.self rfl rfl

theorem accept_hushed (c : Client) (r : ClientRequest) : Hushed c (c.accept em r) := by
  rw [accept_eq]
  have h1 : Hushed c (c.accepting r) := by
    obtain ⟨p, e⟩ := clear_eq { (c.add (.accepted r)) with request := r, responsePending := true, error := .noError }
    refine Hushed.one (e := .accepted r) ?_ ?_ trivial
    · unfold Client.accepting; rw [e]; rfl
    · unfold Client.accepting; rw [e]; rfl
  split
  · exact h1.trans (sendRequest_hushed _)
  · refine (h1.trans ?_).trans (connectReply_hushed he _)
    generalize c.accepting r = c1
    refine ⟨?_, _, (reconnecting_log c1).trans (List.append_assoc ..), fun e hm => ?_⟩
    · unfold Client.reconnecting
      dsimp only
      split <;> rfl
    · rcases List.mem_append.1 hm with hm | hm
      · split at hm
        · cases hm
        · rw [List.mem_singleton.1 hm]; trivial
      · rw [List.mem_singleton.1 hm]; trivial

theorem makeRequest_hushed (c : Client) (r : ClientRequest) : Hushed c (c.makeRequest em r) := by
  unfold Client.makeRequest
  split
  · exact Hushed.one rfl rfl trivial
  · split
    · exact Hushed.one (e := .deferred r) rfl rfl trivial
    · exact accept_hushed he c r

theorem call_hushed (env : ClientEnv) (c : Client) (u : UserCall) : Hushed c (c.call env em u) := by
  cases u with
  | request r => exact makeRequest_hushed he c r
  | abort =>
    show Hushed c (c.abort em)
    unfold Client.abort
    dsimp only
    split
    · refine Hushed.trans ?_ (he .finished _ (by simp))
      exact Hushed.one (e := .abort) rfl rfl trivial
    · exact Hushed.one (e := .abort) rfl rfl trivial
  | consumeContent =>
    show Hushed c c.consumeContent
    unfold Client.consumeContent
    dsimp only
    split <;> exact Hushed.one (e := .consumed _) rfl rfl trivial
  | followRedirection =>
    show Hushed c (c.followRedirection env em)
    unfold Client.followRedirection
    dsimp only
    have h : Hushed c (c.add .followRedirection) := Hushed.one (e := .followRedirection) rfl rfl trivial
    split
    · exact h
    · exact h.trans (makeRequest_hushed he (c.add .followRedirection) _)
  | setKeepAliveTimeout ms => exact Hushed.self rfl rfl
  | setReadBufferSize n => exact Hushed.self rfl rfl

theorem calls_hushed (env : ClientEnv) : ∀ (l : List UserCall) (c : Client), Hushed c (l.foldl (Client.call env em) c)
  | [], c => Hushed.refl c
  | u :: l, c => (call_hushed he env c u).trans (calls_hushed env l _)

end

theorem shows_still (c : Client) {s : Signal} (h : s ≠ .content) : (c.shows s).Still := by cases s <;> first | trivial | exact absurd rfl h

theorem emit_hushed (env : ClientEnv) : ∀ n, EmHushed (Client.emit env n)
  | 0, s, c, h => Hushed.one (e := c.shows s) rfl rfl (shows_still c h)
  | n + 1, s, c, h => by
    show Hushed c ((((c.add (c.shows s)).react s).1).foldl (Client.call env (Client.emit env n)) ((c.add (c.shows s)).react s).2)
    refine Hushed.trans ?_ (calls_hushed (emit_hushed env n) env _ _)
    cases s with
    | headers => exact Hushed.one (e := c.shows .headers) rfl rfl trivial
    | content => exact absurd rfl h
    | finished => exact Hushed.one (e := c.shows .finished) rfl rfl trivial

/-- Content that is announced is taken at once. -/
def Eagerly (log : List CEv) : Prop := ∀ l₁ ct l₂, log = l₁ ++ .contentReadyRead ct :: l₂ → ∃ l₃, l₂ = .consumed ct :: l₃

/-- The application takes content when it is announced, as long as it reacts at all. -/
structure Eager (L : List CEv) (c : Client) : Prop where
  scripts : ∀ s ∈ c.onContent, s = [.consumeContent]
  log : c.onContent = [] ∨ ∃ l, c.log = L ++ l ∧ Eagerly l

theorem eagerly_append {l k : List CEv} (h : Eagerly l) (hk : ∀ e ∈ k, e.Still) : Eagerly (l ++ k) := by
  intro l1 ct l2 e
  rcases List.append_eq_append_iff.1 e with ⟨a, e1, e2⟩ | ⟨a, e1, e2⟩
  · exact (hk (.contentReadyRead ct) (by rw [e2]; simp)).elim
  · cases a with
    | nil => exact (hk (.contentReadyRead ct) (by rw [List.nil_append] at e2; rw [← e2]; simp)).elim
    | cons x a =>
      simp only [List.cons_append, List.cons.injEq] at e2
      rw [← e2.1] at e1
      obtain ⟨l3, e3⟩ := h l1 ct a e1
      exact ⟨l3 ++ k, by rw [e2.2, e3]; rfl⟩

theorem eagerly_more {l : List CEv} (h : Eagerly l) (ct : Bytes) : Eagerly (l ++ [.contentReadyRead ct, .consumed ct]) := by
  intro l1 ct1 l2 e
  rcases List.append_eq_append_iff.1 e with ⟨a, e1, e2⟩ | ⟨a, e1, e2⟩
  · cases a with
    | nil => injection e2 with e3 e4; cases e3; exact ⟨[], e4.symm⟩
    | cons x a =>
      injection e2 with e3 e4
      cases a with
      | nil => cases e4
      | cons y a => injection e4 with e5 e6; simp at e6
  · cases a with
    | nil => injection e2 with e3 e4; cases e3; exact ⟨[], e4⟩
    | cons x a =>
      simp only [List.cons_append, List.cons.injEq] at e2
      rw [← e2.1] at e1
      obtain ⟨l3, e3⟩ := h l1 ct1 a e1
      exact ⟨l3 ++ [.contentReadyRead ct, .consumed ct], by rw [e2.2, e3]; rfl⟩

theorem Eager.hushed {L : List CEv} {c c' : Client} (h : Eager L c) (k : Hushed c c') : Eager L c' := by
  obtain ⟨l, k1, k2⟩ := k.log
  refine ⟨by rw [k.onContent]; exact h.scripts, ?_⟩
  rw [k.onContent, k1]
  exact h.log.imp id fun ⟨m, e, hl⟩ => ⟨m ++ l, by rw [e, List.append_assoc], eagerly_append hl k2⟩

/-- `contentReadyRead()`. -/
theorem emit_eager (env : ClientEnv) (n : Nat) {L : List CEv} {c : Client} (h : Eager L c) (s : Signal) : Eager L (Client.emit env (n + 1) s c) := by
  cases s with
  | headers => exact h.hushed (emit_hushed env _ _ _ (by simp))
  | finished => exact h.hushed (emit_hushed env _ _ _ (by simp))
  | content =>
    cases hc : c.onContent with
    | nil =>
      have e : Client.emit env (n + 1) .content c = { (c.add (c.shows .content)) with onContent := [] } := by
        show ((c.onContent.headD []).foldl (Client.call env (Client.emit env n)) { (c.add (c.shows .content)) with onContent := c.onContent.tail }) = _
        rw [hc]; rfl
      rw [e]
      exact ⟨by rintro _ ⟨⟩, Or.inl rfl⟩
    | cons s scripts =>
      have hs := h.scripts s (by rw [hc]; simp)
      have e : Client.emit env (n + 1) .content c = Client.consumeContent { (c.add (c.shows .content)) with onContent := scripts } := by
        show ((c.onContent.headD []).foldl (Client.call env (Client.emit env n)) { (c.add (c.shows .content)) with onContent := c.onContent.tail }) = _
        rw [hc, hs]; rfl
      obtain ⟨m, hm, hl⟩ := h.log.resolve_left (by rw [hc]; simp)
      have e1 : (Client.consumeContent { (c.add (c.shows .content)) with onContent := scripts }).onContent = scripts := by
        unfold Client.consumeContent; dsimp only; split <;> rfl
      have e2 : (Client.consumeContent { (c.add (c.shows .content)) with onContent := scripts }).log = c.log ++ [.contentReadyRead c.d.content, .consumed c.d.content] := by
        have : c.log ++ [CEv.contentReadyRead c.d.content, .consumed c.d.content] = c.log ++ [CEv.contentReadyRead c.d.content] ++ [.consumed c.d.content] := by simp
        rw [this]
        unfold Client.consumeContent; dsimp only; split <;> rfl
      rw [e]
      refine ⟨by rw [e1]; exact fun x hx => h.scripts x (by rw [hc]; simp [hx]), Or.inr ?_⟩
      exact ⟨_, by rw [e2, hm, List.append_assoc], eagerly_more hl _⟩

section
variable {L : List CEv} {em : Signal → Client → Client} (hh : EmHushed em) (he : ∀ s c, Eager L c → Eager L (em s c)) (hf : EmFramed em)
include hh he

omit he in
theorem messageComplete_hushed (c : Client) : Hushed c (c.messageComplete em) := by
  rw [messageComplete_eq]
  split
  · obtain ⟨p, e⟩ := clear_eq { c with contentDecoder := none }
    rw [e]
    exact Hushed.self rfl rfl
  · refine Hushed.trans ?_ (hh .finished _ (by simp))
    have hc := (completing_facts c).2.2.2.2.2.2.2.1
    rcases completing_log c with e | e
    · exact Hushed.self hc e
    · exact Hushed.one hc e trivial

theorem clientCb_eager (env : ClientEnv) (k : Cb) (p : HParser) {c : Client} (h : Eager L c) : Eager L (clientCb env em k p c).2 := by
  cases k with
  | messageBegin => exact h.hushed (Hushed.self rfl rfl)
  | field bs => exact h.hushed (Hushed.self rfl rfl)
  | value bs => exact h.hushed (Hushed.self rfl rfl)
  | headersComplete =>
    show Eager L (Client.headersComplete env em { c with p := p, parsing := true, d := c.d.push })
    have h0 : Eager L { c with p := p, parsing := true, d := c.d.push } := h.hushed (Hushed.self rfl rfl)
    generalize ({ c with p := p, parsing := true, d := c.d.push } : Client) = c0 at h0 ⊢
    unfold Client.headersComplete
    split
    · exact h0
    · dsimp only
      have h1 := he .headers _ h0
      generalize em .headers c0 = c1 at h1 ⊢
      split
      · exact h1.hushed (Hushed.trans (b := { c1 with p := c1.p.pause }) (Hushed.self rfl rfl) (messageComplete_hushed hh _))
      · split
        · exact h1.hushed (Hushed.self rfl rfl)
        · exact h1
  | body bs =>
    show Eager L (Client.messageContent env em bs { c with p := p, parsing := true })
    rw [messageContent_eq]
    refine he _ _ ?_
    obtain ⟨ct, dec, e⟩ := storing_facts env bs { c with p := p, parsing := true }
    rw [e]
    exact h.hushed (Hushed.self rfl rfl)
  | messageComplete =>
    have h1 : Eager L (Client.messageComplete em { c with p := p, parsing := true }) :=
      h.hushed (Hushed.trans (b := { c with p := p, parsing := true }) (Hushed.self rfl rfl) (messageComplete_hushed hh _))
    exact h1.hushed (Hushed.self rfl rfl)

include hf
theorem inject_eager (env : ClientEnv) {c : Client} (h : Eager L c) (data : Bytes) : Eager L (c.inject env em data).1 := by
  have h1 := (inv_execute (cb := clientCb env em) (Iok := Eager L) (Iany := Eager L) (fun _ h => h)
    (fun k p s hk hs => ⟨clientCb_eager hh he env k p hs, fun hn => ⟨by
      rcases (clientCb_tame env hf).tame k p s hk with e | e
      · exact (congrArg HParser.errno e).trans hk
      · exact absurd e.1 hn, clientCb_eager hh he env k p hs⟩⟩) (p := c.p) (s := { c with parsing := true }) (h.hushed (Hushed.self rfl rfl)) data).1
  exact h1.hushed (Hushed.self rfl rfl)

theorem receive_eager (env : ClientEnv) {c : Client} (h : Eager L c) (data : Bytes) : Eager L (c.receive env em data) := by
  unfold Client.receive
  dsimp only
  have h1 := inject_eager hh he hf env h data
  generalize (c.inject env em data).2 = n
  generalize (c.inject env em data).1 = c1 at h1 ⊢
  generalize hc2 : (if c1.responsePending then _ else _ : Client) = c2
  have h2 : Eager L c2 := by
    subst hc2
    split
    · have h3 : Eager L (if !c1.hasError && decide (n < data.length) then (c1.inject env em (data.drop n)).1 else c1 : Client) := by
        split
        · exact inject_eager hh he hf env h1 _
        · exact h1
      generalize (if !c1.hasError && decide (n < data.length) then (c1.inject env em (data.drop n)).1 else c1 : Client) = c3 at h3 ⊢
      split
      · exact he _ _ (h3.hushed (Hushed.one (e := .close) rfl rfl trivial))
      · exact h3
    · exact h1
  split
  · exact h2.hushed (Hushed.trans (b := { c2 with pendingRequest := {} }) (Hushed.self rfl rfl) (makeRequest_hushed hh _ _))
  · exact h2

theorem readyRead_eager (env : ClientEnv) {c : Client} (h : Eager L c) : Eager L (c.readyRead env em) := by
  unfold Client.readyRead
  split
  · exact h.hushed (Hushed.one rfl rfl trivial)
  · split
    · exact h
    · dsimp only
      generalize (if c.sock.readBufferSize > 0 then _ else _ : Nat) = n
      split
      · exact h
      · refine receive_eager hh he hf env ?_ _
        exact h.hushed (Hushed.self rfl rfl)

end

theorem step_eager (env : ClientEnv) (fuel : Nat) {L : List CEv} {c : Client} (h : Eager L c) (i : CInput) : Eager L (c.step env (fuel + 1) i) := by
  have hh := emit_hushed env (fuel + 1)
  have he : ∀ s c, Eager L c → Eager L (Client.emit env (fuel + 1) s c) := fun s c h => emit_eager env fuel h s
  have hf := emit_framed env (fuel + 1)
  cases i with
  | call u => exact h.hushed (call_hushed hh env c u)
  | connected =>
    show Eager L (if c.sock.state = .connecting then { c with sock := { c.sock with state := .connected } }.sendRequest else c)
    split
    · exact h.hushed (Hushed.trans (b := { c with sock := { c.sock with state := .connected } }) (Hushed.self rfl rfl) (sendRequest_hushed _))
    · exact h
  | error rc => exact h.hushed (deviceError_hushed hh c rc)
  | arrive bs =>
    show Eager L (if c.sock.state = .connected ∨ c.sock.state = .closing then { c with sock := { c.sock with rx := c.sock.rx ++ bs } } else c)
    split
    · exact h.hushed (Hushed.self rfl rfl)
    · exact h
  | readyRead => exact readyRead_eager hh he hf env h
  | disconnected => exact h.hushed (Hushed.self rfl rfl)
  | unsent u => exact h.hushed (Hushed.self rfl rfl)
  | timeout =>
    show Eager L (if c.timers = 0 then c else { c with timers := c.timers - 1 }.readyRead env (Client.emit env (fuel + 1)))
    split
    · exact h
    · exact readyRead_eager hh he hf env (c := { c with timers := c.timers - 1 }) (h.hushed (Hushed.self rfl rfl))
  | tick ms => exact h.hushed (Hushed.self rfl rfl)

theorem run_eager (env : ClientEnv) (fuel : Nat) {L : List CEv} : ∀ (is : List CInput) {c : Client}, Eager L c → Eager L (c.run env (fuel + 1) is)
  | [], _, h => h
  | i :: is, _, h => run_eager env fuel is (step_eager env fuel h i)

end Pillow
