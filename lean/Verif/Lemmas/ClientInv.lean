import Verif.Spec.ClientRun
import Verif.Lemmas.ParserRel
import Verif.Lemmas.ParserSafe
import Verif.Lemmas.RespParser
import Verif.Props.Writer
/-!
# Invariants of the client
-/
namespace Pillow
open Spec

/-- What may happen to the parser and the request while parsing: nothing, or the request is given up and the parser paused. -/
def Framed (c c' : Client) : Prop :=
  c'.parsing = true ∧ ((c'.responsePending = c.responsePending ∧ c'.p = c.p) ∨ (c.responsePending = true ∧ c'.responsePending = false ∧ c'.p = c.p.pause))

theorem Framed.refl {c : Client} (h : c.parsing = true) : Framed c c := ⟨h, Or.inl ⟨rfl, rfl⟩⟩

theorem Framed.trans {a b c : Client} (h : Framed a b) (h' : Framed b c) : Framed a c := by
  refine ⟨h'.1, ?_⟩
  rcases h.2 with ⟨h1, h2⟩ | ⟨h1, h2, h3⟩
  · rcases h'.2 with ⟨k1, k2⟩ | ⟨k1, k2, k3⟩
    · exact Or.inl ⟨k1.trans h1, k2.trans h2⟩
    · exact Or.inr ⟨h1 ▸ k1, k2, by rw [k3, h2]⟩
  · rcases h'.2 with ⟨k1, k2⟩ | ⟨k1, _, _⟩
    · exact Or.inr ⟨h1, k1.trans h2, k2.trans h3⟩
    · rw [h2] at k1; cases k1

/-- The emission of signals is framed. -/
def EmFramed (em : Signal → Client → Client) : Prop := ∀ s c, c.parsing = true → Framed c (em s c)

theorem makeRequest_framed {em : Signal → Client → Client} (r : ClientRequest) {c : Client} (h : c.parsing = true) : Framed c (c.makeRequest em r) := by
  unfold Client.makeRequest
  split
  · exact ⟨h, Or.inl ⟨rfl, rfl⟩⟩
  · exact ⟨h, Or.inl ⟨rfl, rfl⟩⟩

theorem call_framed {env : ClientEnv} {em : Signal → Client → Client} (he : EmFramed em) {c : Client} (u : UserCall) (h : c.parsing = true) : Framed c (c.call env em u) := by
  cases u with
  | request r => exact makeRequest_framed r h
  | abort =>
    show Framed c (c.abort em)
    unfold Client.abort
    dsimp only
    split
    · rename_i hp
      have hf := he .finished { { (c.add .abort) with sock := c.sock.abort } with p := c.p.pause, error := .aborted, responsePending := false } h
      refine Framed.trans ?_ hf
      exact ⟨h, Or.inr ⟨hp, rfl, rfl⟩⟩
    · exact ⟨h, Or.inl ⟨rfl, rfl⟩⟩
  | consumeContent =>
    show Framed c c.consumeContent
    unfold Client.consumeContent
    dsimp only
    split <;> exact ⟨h, Or.inl ⟨rfl, rfl⟩⟩
  | followRedirection =>
    show Framed c (c.followRedirection env em)
    unfold Client.followRedirection
    dsimp only
    have h1 : Framed c (c.add .followRedirection) := ⟨h, Or.inl ⟨rfl, rfl⟩⟩
    split
    · exact h1
    · exact h1.trans (makeRequest_framed _ h)
  | setKeepAliveTimeout ms => exact ⟨h, Or.inl ⟨rfl, rfl⟩⟩
  | setReadBufferSize n => exact ⟨h, Or.inl ⟨rfl, rfl⟩⟩

theorem calls_framed {env : ClientEnv} {em : Signal → Client → Client} (he : EmFramed em) : ∀ (l : List UserCall) {c : Client}, c.parsing = true →
    Framed c (l.foldl (Client.call env em) c)
  | [], _, h => Framed.refl h
  | u :: l, _, h => (call_framed he u h).trans (calls_framed he l (call_framed he u h).1)

theorem react_framed (c : Client) (s : Signal) (h : c.parsing = true) : Framed c ((c.add (c.shows s)).react s).2 := by
  cases s <;> exact ⟨h, Or.inl ⟨rfl, rfl⟩⟩

theorem emit_framed (env : ClientEnv) : ∀ n, EmFramed (Client.emit env n)
  | 0, _, _, h => ⟨h, Or.inl ⟨rfl, rfl⟩⟩
  | n + 1, s, c, h => by
    show Framed c ((((c.add (c.shows s)).react s).1).foldl (Client.call env (Client.emit env n)) ((c.add (c.shows s)).react s).2)
    have h1 := react_framed c s h
    exact h1.trans (calls_framed (emit_framed env n) _ h1.1)

/-! ## The callbacks and the parser -/

theorem clear_parsing {c : Client} (h : c.parsing = true) : c.clear.p = c.p.init.pause := by
  unfold Client.clear
  dsimp only
  rw [if_pos h]

theorem init_good (k : Nat) {p : HParser} (hb : p.bad = false) : Good k p.init.pause :=
  Good.pause rfl (Good.plain hb (Nat.zero_le _) (by simp [HParser.init]))

theorem pause_pause {p : HParser} (h : p.errno = .ok) : p.pause.pause = p.pause := by
  rw [pause_ok h]; rfl

theorem pause_status (p : HParser) : p.pause.status = p.status := by unfold HParser.pause; split <;> rfl

/-- `messageComplete` before it emits `finished()`. -/
def Client.completing (c : Client) : Client :=
  let c := { c with contentDecoder := none, responsePending := false }
  if c.keepAliveTimeout = 0 then { (c.add .close) with sock := c.sock.close }
  else
    let c := if !c.p.shouldKeepAlive then { (c.add .close) with sock := c.sock.close } else c
    { c with timer := some c.now }

theorem messageComplete_eq (em : Signal → Client → Client) (c : Client) :
    c.messageComplete em = if c.p.status = 100 then { c with contentDecoder := none }.clear else em .finished c.completing := rfl

theorem completing_facts (c : Client) : c.completing.p = c.p ∧ c.completing.parsing = c.parsing ∧ c.completing.responsePending = false ∧ c.completing.d = c.d ∧
    c.completing.request = c.request ∧ c.completing.error = c.error ∧ c.completing.onHeaders = c.onHeaders ∧ c.completing.onContent = c.onContent ∧ c.completing.onFinished = c.onFinished ∧
    c.completing.pendingRequest = c.pendingRequest ∧ c.completing.hostHeaderValue = c.hostHeaderValue ∧ c.completing.writer = c.writer ∧ c.completing.onConnect = c.onConnect := by
  unfold Client.completing
  dsimp only
  split
  · refine ⟨rfl, rfl, rfl, rfl, rfl, rfl, rfl, rfl, rfl, rfl, rfl, rfl, rfl⟩
  · split <;> refine ⟨rfl, rfl, rfl, rfl, rfl, rfl, rfl, rfl, rfl, rfl, rfl, rfl, rfl⟩

theorem messageComplete_framed {em : Signal → Client → Client} (he : EmFramed em) {c : Client} (h : c.parsing = true) (hs : c.p.status ≠ 100) :
    (c.messageComplete em).parsing = true ∧ (c.messageComplete em).responsePending = false ∧ (c.messageComplete em).p = c.p := by
  rw [messageComplete_eq, if_neg hs]
  obtain ⟨h1, h2, h3, -⟩ := completing_facts c
  have hf := he .finished c.completing (h2.trans h)
  refine ⟨hf.1, ?_⟩
  rcases hf.2 with ⟨k1, k2⟩ | ⟨k1, _, _⟩
  · exact ⟨k1.trans h3, k2.trans h1⟩
  · rw [h3] at k1; cases k1

theorem headersComplete_p (env : ClientEnv) {em : Signal → Client → Client} (he : EmFramed em) {c : Client} (h : c.parsing = true) (hk : c.p.errno = .ok) :
    (c.headersComplete env em).parsing = true ∧ ((c.headersComplete env em).p = c.p ∨ (c.headersComplete env em).p = c.p.pause) := by
  unfold Client.headersComplete
  split
  · exact ⟨h, Or.inl rfl⟩
  · rename_i hs
    dsimp only
    have hf := he .headers c h
    generalize em .headers c = c1 at hf ⊢
    have hp : c1.p = c.p ∨ c1.p = c.p.pause := hf.2.elim (fun h => Or.inl h.2) fun h => Or.inr h.2.2
    have hp2 : c1.p.pause = c.p.pause := by
      rcases hp with h | h
      · rw [h]
      · rw [h, pause_pause hk]
    split
    · have hm := messageComplete_framed he (c := { c1 with p := c1.p.pause }) hf.1 (by show c1.p.pause.status ≠ 100; rw [hp2, pause_status]; exact hs)
      exact ⟨hm.1, Or.inr (hm.2.2.trans hp2)⟩
    · split
      · exact ⟨hf.1, hp⟩
      · exact ⟨hf.1, hp⟩

/-- The client after `messageContent` has stored the content. -/
def Client.storing (env : ClientEnv) (data : Bytes) (c : Client) : Client :=
  match c.contentDecoder, env.inflate with
  | some blocks, some inflate =>
    { c with contentDecoder := some (blocks ++ [data]), d := { c.d with content := c.d.content ++ inflate (blocks ++ [data]) } }
  | _, _ => { c with d := { c.d with content := c.d.content ++ data } }

theorem messageContent_eq (env : ClientEnv) (em : Signal → Client → Client) (data : Bytes) (c : Client) :
    c.messageContent env em data = em .content (c.storing env data) := by
  unfold Client.messageContent Client.storing
  rfl

theorem storing_facts (env : ClientEnv) (data : Bytes) (c : Client) : ∃ ct dec, c.storing env data = { c with contentDecoder := dec, d := { c.d with content := c.d.content ++ ct } } := by
  unfold Client.storing
  split
  · exact ⟨_, _, rfl⟩
  · exact ⟨_, _, rfl⟩

theorem messageContent_p (env : ClientEnv) {em : Signal → Client → Client} (he : EmFramed em) {c : Client} (data : Bytes) (h : c.parsing = true) :
    Framed c (c.messageContent env em data) := by
  rw [messageContent_eq]
  obtain ⟨ct, dec, e⟩ := storing_facts env data c
  rw [e]
  exact Framed.trans (b := { c with contentDecoder := dec, d := { c.d with content := c.d.content ++ ct } }) ⟨h, Or.inl ⟨rfl, rfl⟩⟩ (he _ _ h)

theorem clientCb_tame (env : ClientEnv) {em : Signal → Client → Client} (he : EmFramed em) : Tame (clientCb env em) where
  tame := by
    intro c p s hk
    have hpp : p.pause.errno = .paused := by rw [pause_ok hk]
    cases c with
    | messageBegin => exact Or.inl rfl
    | field bs => exact Or.inl rfl
    | value bs => exact Or.inl rfl
    | headersComplete =>
      rcases (headersComplete_p env he (c := { s with p := p, parsing := true, d := s.d.push }) rfl hk).2 with h | h
      · exact Or.inl h
      · exact Or.inr ⟨(congrArg HParser.errno h).trans hpp, fun k hg => by
          show Good k (Client.headersComplete env em _).p
          rw [h]; exact hg.pause hk⟩
    | body bs =>
      rcases (messageContent_p env he (c := { s with p := p, parsing := true }) bs rfl).2 with ⟨-, h⟩ | ⟨-, -, h⟩
      · exact Or.inl h
      · exact Or.inr ⟨(congrArg HParser.errno h).trans hpp, fun k hg => by
          show Good k (Client.messageContent env em bs _).p
          rw [h]; exact hg.pause hk⟩
    | messageComplete =>
      right
      by_cases hs : p.status = 100
      · have e : (clientCb env em .messageComplete p s).1 = p.init.pause := by
          show (Client.messageComplete em { s with p := p, parsing := true }).p.pause = _
          rw [messageComplete_eq, if_pos hs, clear_parsing rfl]
          exact pause_pause rfl
        rw [e]
        exact ⟨rfl, fun k hg => init_good k hg.noBad⟩
      · have e : (clientCb env em .messageComplete p s).1 = p.pause := by
          show (Client.messageComplete em { s with p := p, parsing := true }).p.pause = _
          rw [(messageComplete_framed he (c := { s with p := p, parsing := true }) rfl hs).2.2]
        rw [e]
        exact ⟨hpp, fun k hg => hg.pause hk⟩
  done := by
    intro p s hk
    by_cases hs : p.status = 100
    · show (Client.messageComplete em { s with p := p, parsing := true }).p.pause.errno ≠ _
      rw [messageComplete_eq, if_pos hs, clear_parsing rfl, pause_pause rfl]
      simp [pause_ok, HParser.init, HParser.pause]
    · show (Client.messageComplete em { s with p := p, parsing := true }).p.pause.errno ≠ _
      rw [(messageComplete_framed he (c := { s with p := p, parsing := true }) rfl hs).2.2, pause_ok hk]
      simp

end Pillow
