import Verif.Lemmas.ParserBudget
import Verif.Lemmas.ClientFresh
import Verif.Lemmas.ClientLog
import Verif.Lemmas.ClientQuiet
import Verif.Spec.Pace
/-!
# The content the client holds is bounded by the size of the read buffer
-/
namespace Pillow
open Spec

/-- A response with `Content-Encoding: gzip` has been announced, and the library can decode it (`Q`). -/
def Zip (Q : Prop) (log : List CEv) : Prop := Q ∧ ∃ st hs, .headersCompleted st hs ∈ log ∧ Gzipped hs

theorem Zip.grow {Q : Prop} {l l' : List CEv} (h : Zip Q l) (hl : l <+: l') : Zip Q l' := by
  obtain ⟨q, st, hs, hm, hz⟩ := h
  exact ⟨q, st, hs, hl.subset hm, hz⟩

/-- There is room for `k` more bytes of content if the request is still pending, and everything the application has seen was within the limit. -/
structure Limited (n : Nat) (B : List CEv) (k : Nat) (c : Client) : Prop where
  held : c.d.content.length ≤ n
  room : c.responsePending = true → c.d.content.length + k ≤ n
  log : ∃ l, c.log = B ++ l ∧ ∀ e ∈ l, (content e).length ≤ n

/-- This is so as long as nothing was decoded. -/
structure Room (Q : Prop) (n : Nat) (B : List CEv) (k : Nat) (c : Client) : Prop where
  size : c.sock.readBufferSize = n
  decoder : Q → c.contentDecoder = none ∨ Zip Q c.log
  fits : Zip Q c.log ∨ Limited n B k c
  onHeaders : ∀ calls ∈ c.onHeaders, NoResize calls
  onContent : ∀ calls ∈ c.onContent, NoResize calls
  onFinished : ∀ calls ∈ c.onFinished, NoResize calls

/-- Outside the parser, no data is at hand. -/
def Roomy (Q : Prop) (n : Nat) (B : List CEv) (k : Nat) (c : Client) : Prop := Room Q n B k c ∧ (k = 0 ∨ c.parsing = true)

def EmRoomy (Q : Prop) (n : Nat) (B : List CEv) (em : Signal → Client → Client) : Prop := ∀ k s c, Roomy Q n B k c → Roomy Q n B k (em s c)

variable {Q : Prop} {n : Nat} {B : List CEv} {k : Nat}

theorem Room.mono {j : Nat} {c : Client} (hj : j ≤ k) (h : Room Q n B k c) : Room Q n B j c :=
  ⟨h.size, h.decoder, h.fits.imp id fun f => ⟨f.held, (fun hp => by have := f.room hp; omega), f.log⟩, h.onHeaders, h.onContent, h.onFinished⟩

theorem log_snoc {l0 : List CEv} (h : ∃ l, l0 = B ++ l ∧ ∀ e ∈ l, (content e).length ≤ n) {e : CEv} (he : (content e).length ≤ n) :
    ∃ l, l0 ++ [e] = B ++ l ∧ ∀ e ∈ l, (content e).length ≤ n := by
  obtain ⟨l, h1, h2⟩ := h
  refine ⟨l ++ [e], by rw [h1, List.append_assoc], fun x hx => ?_⟩
  rcases List.mem_append.1 hx with hx | hx
  · exact h2 x hx
  · rw [List.mem_singleton.1 hx]; exact he

theorem Room.same {c c' : Client} (h : Room Q n B k c) (e1 : c'.sock.readBufferSize = c.sock.readBufferSize) (e2 : c'.d.content = c.d.content ∨ c'.d.content = [])
    (e3 : c'.responsePending = true → c.responsePending = true) (e4 : c'.log = c.log ∨ ∃ e, c'.log = c.log ++ [e] ∧ (Zip Q c.log ∨ (content e).length ≤ n))
    (e5 : c'.onHeaders = c.onHeaders) (e6 : c'.onContent = c.onContent) (e7 : c'.onFinished = c.onFinished)
    (e9 : c'.contentDecoder = c.contentDecoder ∨ c'.contentDecoder = none := by first | exact Or.inl rfl | exact Or.inr rfl) : Room Q n B k c' := by
  have hl : c.log <+: c'.log := by
    rcases e4 with e | ⟨e, he, -⟩
    · rw [e]; exact List.prefix_refl _
    · rw [he]; exact List.prefix_append _ _
  refine ⟨e1.trans h.size, fun q => ?_, ?_, e5 ▸ h.onHeaders, e6 ▸ h.onContent, e7 ▸ h.onFinished⟩
  · rcases e9 with e | e
    · rw [e]; exact (h.decoder q).imp id (·.grow hl)
    · exact Or.inl e
  · rcases h.fits with z | f
    · exact Or.inl (z.grow hl)
    · have h2 : Zip Q c.log ∨ ∃ l, c'.log = B ++ l ∧ ∀ e ∈ l, (content e).length ≤ n := by
        rcases e4 with e | ⟨e, he, hc⟩
        · rw [e]; exact Or.inr f.log
        · rw [he]; exact hc.imp id (log_snoc f.log)
      refine h2.imp (·.grow hl) fun g => ⟨?_, fun hp => ?_, g⟩
      · rcases e2 with e | e
        · rw [e]; exact f.held
        · rw [e]; exact Nat.zero_le _
      · have := f.room (e3 hp)
        rcases e2 with e | e
        · rw [e]; exact this
        · rw [e]; simp; omega

theorem Roomy.same {c c' : Client} (h : Roomy Q n B k c) (e1 : c'.sock.readBufferSize = c.sock.readBufferSize) (e2 : c'.d.content = c.d.content ∨ c'.d.content = [])
    (e3 : c'.responsePending = true → c.responsePending = true) (e4 : c'.log = c.log ∨ ∃ e, c'.log = c.log ++ [e] ∧ (Zip Q c.log ∨ (content e).length ≤ n))
    (e5 : c'.onHeaders = c.onHeaders) (e6 : c'.onContent = c.onContent) (e7 : c'.onFinished = c.onFinished) (e8 : c'.parsing = c.parsing)
    (e9 : c'.contentDecoder = c.contentDecoder ∨ c'.contentDecoder = none := by first | exact Or.inl rfl | exact Or.inr rfl) : Roomy Q n B k c' :=
  ⟨h.1.same e1 e2 e3 e4 e5 e6 e7 e9, e8 ▸ h.2⟩

theorem sendRequest_roomy {c : Client} (h : Roomy Q n B k c) : Roomy Q n B k c.sendRequest := by
  unfold Client.sendRequest
  split
  · exact h
  · dsimp only
    split
    · exact h.same rfl (Or.inl rfl) id (Or.inr ⟨_, rfl, Or.inr (Nat.zero_le _)⟩) rfl rfl rfl rfl
    · exact h.same rfl (Or.inl rfl) id (Or.inr ⟨_, rfl, Or.inr (Nat.zero_le _)⟩) rfl rfl rfl rfl

theorem accepting_roomy {c : Client} (h : Roomy Q n B k c) (hp : c.parsing = false) (r : ClientRequest) : Roomy Q n B k (c.accepting r) := by
  have e : c.accepting r = { (c.add (.accepted r)) with request := r, responsePending := true, error := .noError, p := c.p.init, d := { c.d with headers := [], content := [] } } := by
    unfold Client.accepting Client.clear
    dsimp only
    rw [if_neg (by simp [Client.add, hp])]
    rfl
  have hk : k = 0 := h.2.elim id fun hq => by rw [hp] at hq; cases hq
  rw [e]
  have hg : c.log <+: c.log ++ [.accepted r] := List.prefix_append _ _
  refine ⟨⟨h.1.size, fun q => (h.1.decoder q).imp id (·.grow hg), ?_, h.1.onHeaders, h.1.onContent, h.1.onFinished⟩, Or.inl hk⟩
  rcases h.1.fits with z | f
  · exact Or.inl (z.grow hg)
  · exact Or.inr ⟨Nat.zero_le _, (fun _ => by subst hk; exact Nat.zero_le _), log_snoc f.log (Nat.zero_le _)⟩

theorem connect_size (k : Sock) (a : Bytes) (n : Nat) : (k.connectToHost a n).readBufferSize = k.readBufferSize := by
  unfold Sock.connectToHost
  split <;> rfl

theorem reconnecting_roomy {c : Client} (h : Roomy Q n B k c) : Roomy Q n B k c.reconnecting := by
  have key : ∀ c2 : Client, Roomy Q n B k c2 → Roomy Q n B k { (c2.add (.connectToHost c2.request.url.host c2.request.url.portOr80)) with sock := c2.sock.connectToHost c2.request.url.host c2.request.url.portOr80 } :=
    fun c2 h2 => h2.same (connect_size _ _ _) (Or.inl rfl) id (Or.inr ⟨_, rfl, Or.inr (Nat.zero_le _)⟩) rfl rfl rfl rfl
  unfold Client.reconnecting
  dsimp only
  refine key _ ?_
  split
  · exact h.same rfl (Or.inl rfl) id (Or.inr ⟨_, rfl, Or.inr (Nat.zero_le _)⟩) rfl rfl rfl rfl
  · exact h.same rfl (Or.inl rfl) id (Or.inl rfl) rfl rfl rfl rfl

section
variable {em : Signal → Client → Client} (he : EmRoomy Q n B em)
include he

theorem deviceError_roomy {c : Client} (h : Roomy Q n B k c) (rc : Bool) : Roomy Q n B k (c.deviceError em rc) := by
  unfold Client.deviceError
  split
  · exact h
  · exact he _ _ _ (h.same rfl (Or.inl rfl) (by rintro ⟨⟩) (Or.inr ⟨.close, rfl, Or.inr (Nat.zero_le _)⟩) rfl rfl rfl rfl)

theorem connectReply_roomy {c : Client} (h : Roomy Q n B k c) : Roomy Q n B k (c.connectReply em) := by
  have h0 : Roomy Q n B k { c with onConnect := c.onConnect.tail } := h.same rfl (Or.inl rfl) id (Or.inl rfl) rfl rfl rfl rfl
  unfold Client.connectReply
  dsimp only
  split
  · split
    · exact h0
    · exact sendRequest_roomy (h.same rfl (Or.inl rfl) id (Or.inl rfl) rfl rfl rfl rfl)
    · exact deviceError_roomy he h0 _
  · exact h0

theorem makeRequest_roomy {c : Client} (h : Roomy Q n B k c) (r : ClientRequest) : Roomy Q n B k (c.makeRequest em r) := by
  unfold Client.makeRequest
  split
  · exact h.same rfl (Or.inl rfl) id (Or.inr ⟨_, rfl, Or.inr (Nat.zero_le _)⟩) rfl rfl rfl rfl
  · split
    · exact h.same rfl (Or.inl rfl) id (Or.inr ⟨_, rfl, Or.inr (Nat.zero_le _)⟩) rfl rfl rfl rfl
    · rename_i hp
      have hp : c.parsing = false := by simpa using hp
      rw [accept_eq]
      have h1 := accepting_roomy h hp r
      split
      · exact sendRequest_roomy h1
      · exact connectReply_roomy he (reconnecting_roomy h1)

theorem call_roomy (env : ClientEnv) {c : Client} (h : Roomy Q n B k c) {u : UserCall} (hu : ∀ j, u ≠ .setReadBufferSize j) : Roomy Q n B k (c.call env em u) := by
  cases u with
  | request r => exact makeRequest_roomy he h r
  | abort =>
    show Roomy Q n B k (c.abort em)
    unfold Client.abort
    dsimp only
    split
    · exact he _ _ _ (h.same rfl (Or.inl rfl) (by rintro ⟨⟩) (Or.inr ⟨.abort, rfl, Or.inr (Nat.zero_le _)⟩) rfl rfl rfl rfl)
    · exact h.same rfl (Or.inl rfl) id (Or.inr ⟨.abort, rfl, Or.inr (Nat.zero_le _)⟩) rfl rfl rfl rfl
  | consumeContent =>
    show Roomy Q n B k c.consumeContent
    unfold Client.consumeContent
    dsimp only
    split <;> exact h.same rfl (Or.inr rfl) id (Or.inr ⟨.consumed _, rfl, h.1.fits.imp id (·.held)⟩) rfl rfl rfl rfl
  | followRedirection =>
    show Roomy Q n B k (c.followRedirection env em)
    unfold Client.followRedirection
    dsimp only
    have h : Roomy Q n B k (c.add .followRedirection) := h.same rfl (Or.inl rfl) id (Or.inr ⟨.followRedirection, rfl, Or.inr (Nat.zero_le _)⟩) rfl rfl rfl rfl
    split
    · exact h
    · exact makeRequest_roomy he h _
  | setKeepAliveTimeout ms => exact h.same rfl (Or.inl rfl) id (Or.inl rfl) rfl rfl rfl rfl
  | setReadBufferSize j => exact absurd rfl (hu j)

theorem calls_roomy (env : ClientEnv) : ∀ (l : List UserCall) {c : Client}, NoResize l → Roomy Q n B k c → Roomy Q n B k (l.foldl (Client.call env em) c)
  | [], _, _, h => h
  | u :: l, _, hl, h => calls_roomy env l (fun j hj => hl j (by simp [hj])) (call_roomy he env h fun j e => hl j (by simp [e]))

end

theorem shows_roomy {c : Client} (h : Roomy Q n B k c) (s : Signal) : Zip Q c.log ∨ (content (c.shows s)).length ≤ n := by
  cases s
  · exact Or.inr (Nat.zero_le _)
  · exact h.1.fits.imp id (·.held)
  · exact h.1.fits.imp id (·.held)

theorem headD_noResize {l : List (List UserCall)} (h : ∀ calls ∈ l, NoResize calls) : NoResize (l.headD []) := by
  cases l with
  | nil => intro j hj; cases hj
  | cons a l => exact h a (by simp)

theorem tail_noResize {l : List (List UserCall)} (h : ∀ calls ∈ l, NoResize calls) : ∀ calls ∈ l.tail, NoResize calls := fun x hx => h x (List.mem_of_mem_tail hx)

theorem emit_roomy (env : ClientEnv) : ∀ f, EmRoomy Q n B (Client.emit env f)
  | 0, _, s, _, h => h.same rfl (Or.inl rfl) id (Or.inr ⟨_, rfl, shows_roomy h s⟩) rfl rfl rfl rfl
  | f + 1, k, s, c, h => by
    show Roomy Q n B k ((((c.add (c.shows s)).react s).1).foldl (Client.call env (Client.emit env f)) ((c.add (c.shows s)).react s).2)
    have ha : Roomy Q n B k (c.add (c.shows s)) := h.same rfl (Or.inl rfl) id (Or.inr ⟨_, rfl, shows_roomy h s⟩) rfl rfl rfl rfl
    have hfit : Zip Q (c.add (c.shows s)).log ∨ Limited n B k (c.add (c.shows s)) := ha.1.fits
    cases s
    · exact calls_roomy (emit_roomy env f) env _ (headD_noResize h.1.onHeaders) ⟨⟨h.1.size, ha.1.decoder, hfit.imp id (fun g => ⟨g.held, g.room, g.log⟩), tail_noResize h.1.onHeaders, h.1.onContent, h.1.onFinished⟩, h.2⟩
    · exact calls_roomy (emit_roomy env f) env _ (headD_noResize h.1.onContent) ⟨⟨h.1.size, ha.1.decoder, hfit.imp id (fun g => ⟨g.held, g.room, g.log⟩), h.1.onHeaders, tail_noResize h.1.onContent, h.1.onFinished⟩, h.2⟩
    · exact calls_roomy (emit_roomy env f) env _ (headD_noResize h.1.onFinished) ⟨⟨h.1.size, ha.1.decoder, hfit.imp id (fun g => ⟨g.held, g.room, g.log⟩), h.1.onHeaders, h.1.onContent, tail_noResize h.1.onFinished⟩, h.2⟩

/-! ## The headers are kept while the parser runs -/

def EmKeeps (em : Signal → Client → Client) : Prop := ∀ s c, c.parsing = true → (em s c).d.headers = c.d.headers

theorem call_keeps (env : ClientEnv) {em : Signal → Client → Client} (hk : EmKeeps em) {c : Client} (hp : c.parsing = true) (u : UserCall) : (c.call env em u).d.headers = c.d.headers := by
  have req : ∀ (c : Client) r, c.parsing = true → (c.makeRequest em r).d.headers = c.d.headers := by
    intro c r hp
    unfold Client.makeRequest
    split
    · rfl
    · rfl
  cases u with
  | request r => exact req c r hp
  | abort =>
    show (c.abort em).d.headers = _
    unfold Client.abort
    dsimp only
    split
    · exact hk _ _ hp
    · rfl
  | consumeContent =>
    show c.consumeContent.d.headers = _
    unfold Client.consumeContent
    dsimp only
    split <;> rfl
  | followRedirection =>
    show (c.followRedirection env em).d.headers = _
    unfold Client.followRedirection
    dsimp only
    split
    · rfl
    · exact req _ _ hp
  | setKeepAliveTimeout ms => rfl
  | setReadBufferSize j => rfl

theorem calls_keeps (env : ClientEnv) {em : Signal → Client → Client} (hf : EmFramed em) (hk : EmKeeps em) : ∀ (l : List UserCall) {c : Client}, c.parsing = true →
    (l.foldl (Client.call env em) c).d.headers = c.d.headers
  | [], _, _ => rfl
  | u :: l, _, hp => (calls_keeps env hf hk l (call_framed hf u hp).1).trans (call_keeps env hk hp u)

theorem emit_keeps (env : ClientEnv) : ∀ f, EmKeeps (Client.emit env f)
  | 0, _, _, _ => rfl
  | f + 1, s, c, hp => by
    show ((((c.add (c.shows s)).react s).1).foldl (Client.call env (Client.emit env f)) ((c.add (c.shows s)).react s).2).d.headers = _
    cases s
    · exact calls_keeps env (emit_framed env f) (emit_keeps env f) _ (c := { (c.add (c.shows .headers)) with onHeaders := c.onHeaders.tail }) hp
    · exact calls_keeps env (emit_framed env f) (emit_keeps env f) _ (c := { (c.add (c.shows .content)) with onContent := c.onContent.tail }) hp
    · exact calls_keeps env (emit_framed env f) (emit_keeps env f) _ (c := { (c.add (c.shows .finished)) with onFinished := c.onFinished.tail }) hp

/-! ## The callbacks -/

section
variable {env : ClientEnv} (hz : env.inflate = none ∨ Q) {em : Signal → Client → Client} (he : EmRoomy Q n B em) (hf : EmFramed em) (hg : EmGrows em) (hkp : EmKeeps em)
include he

theorem messageComplete_roomy {c : Client} (h : Roomy Q n B k c) : Roomy Q n B k (c.messageComplete em) := by
  rw [messageComplete_eq]
  split
  · unfold Client.clear
    dsimp only
    split <;> exact h.same rfl (Or.inr rfl) id (Or.inl rfl) rfl rfl rfl rfl
  · refine he _ _ _ ?_
    unfold Client.completing
    dsimp only
    split
    · exact h.same rfl (Or.inl rfl) (by rintro ⟨⟩) (Or.inr ⟨.close, rfl, Or.inr (Nat.zero_le _)⟩) rfl rfl rfl rfl
    · split
      · exact h.same rfl (Or.inl rfl) (by rintro ⟨⟩) (Or.inr ⟨.close, rfl, Or.inr (Nat.zero_le _)⟩) rfl rfl rfl rfl
      · exact h.same rfl (Or.inl rfl) (by rintro ⟨⟩) (Or.inl rfl) rfl rfl rfl rfl

include hz hg hkp in
theorem headersComplete_roomy {c : Client} (h : Roomy Q n B k c) (hp : c.parsing = true) : Roomy Q n B k (c.headersComplete env em) := by
  unfold Client.headersComplete
  split
  · exact h
  · dsimp only
    have h1 := he _ .headers _ h
    have h2 := hg .headers c
    have h3 := hkp .headers c hp
    generalize em .headers c = c1 at h1 h2 h3 ⊢
    split
    · exact messageComplete_roomy he (c := { c1 with p := c1.p.pause }) (h1.same rfl (Or.inl rfl) id (Or.inl rfl) rfl rfl rfl rfl)
    · split
      · rename_i hx
        have hx := Bool.and_eq_true_iff.1 hx
        have hq : Q := hz.resolve_left (fun e => by rw [e] at hx; cases hx.1)
        have hzip : Zip Q c1.log := by
          refine ⟨hq, c.p.status, c.d.headers, h2.subset (by simp [Client.shows]), (gzipped_iff _).1 ?_⟩
          rw [← h3]; exact hx.2
        exact ⟨⟨h1.1.size, fun _ => Or.inr hzip, Or.inl hzip, h1.1.onHeaders, h1.1.onContent, h1.1.onFinished⟩, h1.2⟩
      · exact h1

include hf

theorem headersComplete_still {c : Client} (h : c.parsing = true) (hk : c.p.errno = .ok) (hp : c.responsePending = true) (hq : (c.headersComplete env em).p.errno = .ok) :
    (c.headersComplete env em).responsePending = true := by
  unfold Client.headersComplete at hq ⊢
  by_cases hs : c.p.status = 100
  · rw [if_pos hs]; exact hp
  · rw [if_neg hs] at hq ⊢
    dsimp only at hq ⊢
    have hfr := hf .headers c h
    generalize em .headers c = c1 at hfr hq ⊢
    have hc1 : c1.p.errno = .ok → c1.responsePending = true := by
      intro h1
      rcases hfr.2 with ⟨k1, -⟩ | ⟨-, -, k3⟩
      · exact k1.trans hp
      · rw [k3, pause_ok hk] at h1; cases h1
    by_cases hh : asciiEqualsCILower (c1.request.method.getD []) b!"head" = true
    · rw [if_pos hh] at hq
      have hst : ¬ c1.p.pause.status = 100 := by
        rw [pause_status]
        rcases hfr.2 with ⟨-, k2⟩ | ⟨-, -, k3⟩
        · rw [k2]; exact hs
        · rw [k3, pause_status]; exact hs
      obtain ⟨-, -, k3⟩ := messageComplete_framed hf (c := { c1 with p := c1.p.pause }) hfr.1 hst
      rw [k3] at hq
      have hq : c1.p.pause.errno = .ok := hq
      rcases hfr.2 with ⟨-, k2⟩ | ⟨-, -, k3'⟩
      · rw [k2, pause_ok hk] at hq; cases hq
      · rw [k3', pause_pause hk, pause_ok hk] at hq; cases hq
    · rw [if_neg hh] at hq ⊢
      split at hq
      · rename_i hi
        rw [if_pos hi]; exact hc1 hq
      · rename_i hi
        rw [if_neg hi]; exact hc1 hq

include hz hg hkp

theorem clientCb_budget : Budget (clientCb env em) (fun k c => Room Q n B k c ∧ c.parsing = true ∧ c.responsePending = true) (fun k c => Room Q n B k c ∧ c.parsing = true) := by
  have body : ∀ bs p (c : Client) k, Room Q n B (bs.length + k) c → c.responsePending = true → Roomy Q n B k (Client.messageContent env em bs { c with p := p, parsing := true }) := by
    intro bs p c k h hp
    rw [messageContent_eq]
    refine he _ _ _ ?_
    by_cases hd : env.inflate = none ∨ c.contentDecoder = none
    · have e : Client.storing env bs { c with p := p, parsing := true } = { c with p := p, parsing := true, d := { c.d with content := c.d.content ++ bs } } := by
        unfold Client.storing
        rcases hd with e | e
        · rw [e]; cases c.contentDecoder <;> rfl
        · dsimp only; rw [e]
      rw [e]
      refine ⟨⟨h.size, h.decoder, h.fits.imp id fun f => ⟨?_, fun _ => ?_, f.log⟩, h.onHeaders, h.onContent, h.onFinished⟩, Or.inr rfl⟩
      · have := f.room hp
        show (c.d.content ++ bs).length ≤ n
        rw [List.length_append]; omega
      · have := f.room hp
        show (c.d.content ++ bs).length + k ≤ n
        rw [List.length_append]; omega
    · have hq : Q := hz.resolve_left fun e => hd (Or.inl e)
      have hzip : Zip Q c.log := (h.decoder hq).resolve_left fun e => hd (Or.inr e)
      obtain ⟨b1, b2, b3, b4, b5, b6⟩ : (Client.storing env bs { c with p := p, parsing := true }).sock = c.sock ∧ (Client.storing env bs { c with p := p, parsing := true }).log = c.log ∧
          (Client.storing env bs { c with p := p, parsing := true }).onHeaders = c.onHeaders ∧ (Client.storing env bs { c with p := p, parsing := true }).onContent = c.onContent ∧
          (Client.storing env bs { c with p := p, parsing := true }).onFinished = c.onFinished ∧ (Client.storing env bs { c with p := p, parsing := true }).parsing = true := by
        unfold Client.storing
        dsimp only
        split <;> exact ⟨rfl, rfl, rfl, rfl, rfl, rfl⟩
      exact ⟨⟨by rw [b1]; exact h.size, fun _ => Or.inr (by rw [b2]; exact hzip), Or.inl (by rw [b2]; exact hzip), by rw [b3]; exact h.onHeaders, by rw [b4]; exact h.onContent, by rw [b5]; exact h.onFinished⟩, Or.inr b6⟩
  have roomy : ∀ c p (s : Client) k, p.errno = .ok → (Room Q n B (c.size + k) s ∧ s.parsing = true ∧ s.responsePending = true) → Room Q n B k (clientCb env em c p s).2 ∧ (clientCb env em c p s).2.parsing = true := by
    intro c p s k hk ⟨h, hpa, hpe⟩
    cases c with
    | messageBegin => exact ⟨(h.mono (Nat.le_add_left _ _)).same rfl (Or.inr rfl) id (Or.inl rfl) rfl rfl rfl, hpa⟩
    | field bs =>
      refine ⟨(h.mono (Nat.le_add_left _ _)).same rfl (Or.inl ?_) id (Or.inl rfl) rfl rfl rfl, hpa⟩
      show s.d.push.content = s.d.content
      unfold RespData.push; split <;> rfl
    | value bs => exact ⟨(h.mono (Nat.le_add_left _ _)).same rfl (Or.inl rfl) id (Or.inl rfl) rfl rfl rfl, hpa⟩
    | headersComplete =>
      refine ⟨(headersComplete_roomy (env := env) hz he hg hkp (k := k) (c := { s with p := p, parsing := true, d := s.d.push }) ⟨?_, Or.inr rfl⟩ rfl).1, (headersComplete_p env hf (c := { s with p := p, parsing := true, d := s.d.push }) rfl hk).1⟩
      refine (h.mono (Nat.le_add_left _ _)).same rfl (Or.inl ?_) id (Or.inl rfl) rfl rfl rfl
      show s.d.push.content = s.d.content
      unfold RespData.push; split <;> rfl
    | body bs => exact ⟨(body bs p s k h hpe).1, (messageContent_p env hf (c := { s with p := p, parsing := true }) bs rfl).1⟩
    | messageComplete =>
      have h1 := messageComplete_roomy he (k := k) (c := { s with p := p, parsing := true }) ⟨(h.mono (Nat.le_add_left _ _)).same rfl (Or.inl rfl) id (Or.inl rfl) rfl rfl rfl, Or.inr rfl⟩
      refine ⟨h1.1.same rfl (Or.inl rfl) id (Or.inl rfl) rfl rfl rfl, ?_⟩
      show (Client.messageComplete em { s with p := p, parsing := true }).parsing = true
      by_cases hs : p.status = 100
      · rw [messageComplete_eq, if_pos hs]
        obtain ⟨q, e⟩ := clear_eq { s with p := p, parsing := true, contentDecoder := none }
        show (Client.clear { s with p := p, parsing := true, contentDecoder := none }).parsing = true
        rw [e]
      · exact (messageComplete_framed hf (c := { s with p := p, parsing := true }) rfl hs).1
  refine ⟨fun hj h => ⟨h.1.mono hj, h.2⟩, fun hj h => ⟨h.1.mono hj, h.2⟩, fun h => ⟨h.1, h.2.1⟩, ?_, roomy, ?_⟩
  · intro c p s k hk h hq
    obtain ⟨h1, h2⟩ := roomy c p s k hk h
    refine ⟨h1, h2, ?_⟩
    obtain ⟨h, hpa, hpe⟩ := h
    cases c with
    | messageBegin => exact hpe
    | field bs => exact hpe
    | value bs => exact hpe
    | headersComplete => exact headersComplete_still he hf (c := { s with p := p, parsing := true, d := s.d.push }) rfl hk hpe hq
    | body bs =>
      have hfr := messageContent_p env hf (c := { s with p := p, parsing := true }) bs rfl
      rcases hfr.2 with ⟨k1, -⟩ | ⟨-, -, k3⟩
      · exact k1.trans hpe
      · have hq : (Client.messageContent env em bs { s with p := p, parsing := true }).p.errno = .ok := hq
        have k3 : _ = p.pause := k3
        rw [k3, pause_ok hk] at hq
        cases hq
    | messageComplete => exact absurd hq ((clientCb_tame env hf).done p s hk)
  · intro bs p s k hk ⟨h, hpa, hpe⟩ hq j
    have h1 := body bs p s k h hpe
    have hfr := messageContent_p env hf (c := { s with p := p, parsing := true }) bs rfl
    have hno : (Client.messageContent env em bs { s with p := p, parsing := true }).responsePending = false := by
      rcases hfr.2 with ⟨-, k2⟩ | ⟨-, k2, -⟩
      · refine absurd ?_ hq
        show (Client.messageContent env em bs { s with p := p, parsing := true }).p.errno = .ok
        rw [k2]; exact hk
      · exact k2
    refine ⟨⟨h1.1.size, h1.1.decoder, h1.1.fits.imp id fun f => ⟨f.held, fun hp => ?_, f.log⟩, h1.1.onHeaders, h1.1.onContent, h1.1.onFinished⟩, hfr.1⟩
    have hp : (Client.messageContent env em bs { s with p := p, parsing := true }).responsePending = true := hp
    rw [hno] at hp
    cases hp

theorem inject_room {c : Client} {data : Bytes} (hp : c.responsePending = true) (h : Room Q n B data.length c) : Room Q n B (data.length - (c.inject env em data).2) (c.inject env em data).1 := by
  have h0 : Room Q n B (data.length + 0) { c with parsing := true } := h.same rfl (Or.inl rfl) id (Or.inl rfl) rfl rfl rfl
  have h1 := (b_execute (clientCb_budget hz he hf hg hkp) (p := c.p) (s := { c with parsing := true }) 0 ⟨h0, rfl, hp⟩).1
  exact h1.same rfl (Or.inl rfl) id (Or.inl rfl) rfl rfl rfl

theorem receive_roomy {c : Client} {data : Bytes} (ht : Top c) (hp : c.responsePending = true) (h : Room Q n B data.length c) : Room Q n B 0 (c.receive env em data) := by
  unfold Client.receive
  dsimp only
  have h1 := inject_room hz he hf hg hkp hp h
  have hs1 := inject_safe' hf env ht.safe data
  generalize (c.inject env em data).2 = i at h1
  generalize (c.inject env em data).1 = c1 at h1 hs1 ⊢
  generalize hc2 : (if c1.responsePending then _ else _ : Client) = c2
  have h2 : Room Q n B 0 c2 := by
    subst hc2
    split
    · rename_i hpd
      generalize hc3 : (if !c1.hasError && decide (i < data.length) then (c1.inject env em (data.drop i)).1 else c1 : Client) = c3
      have h3 : Room Q n B 0 c3 := by
        subst hc3
        split
        · exact (inject_room hz he hf hg hkp hpd (data := data.drop i) (by rw [List.length_drop]; exact h1)).mono (Nat.zero_le _)
        · exact h1.mono (Nat.zero_le _)
      split
      · exact (he 0 .finished { (c3.add .close) with error := .responseInvalid, sock := c3.sock.close, responsePending := false } ⟨h3.same rfl (Or.inl rfl) (by rintro ⟨⟩) (Or.inr ⟨.close, rfl, Or.inr (Nat.zero_le _)⟩) rfl rfl rfl, Or.inl rfl⟩).1
      · exact h3
    · exact h1.mono (Nat.zero_le _)
  clear hc2
  split
  · exact (makeRequest_roomy he (c := { c2 with pendingRequest := {} }) ⟨h2.same rfl (Or.inl rfl) id (Or.inl rfl) rfl rfl rfl, Or.inl rfl⟩ _).1
  · exact h2

theorem readyRead_roomy {c : Client} (ht : Top c) (hn : 0 < n) (h : Room Q n B 0 c) : Room Q n B 0 (c.readyRead env em) := by
  unfold Client.readyRead
  split
  · exact h.same rfl (Or.inl rfl) id (Or.inr ⟨.close, rfl, Or.inr (Nat.zero_le _)⟩) rfl rfl rfl
  · rename_i hp
    have hp : c.responsePending = true := by simpa using hp
    split
    · exact h
    · dsimp only
      have e : (if c.sock.readBufferSize > 0 then c.sock.readBufferSize - c.d.content.length else c.sock.rx.length) = n - c.d.content.length := by
        rw [h.size, if_pos hn]
      rw [e]
      split
      · exact h
      · refine receive_roomy hz he hf hg hkp (ht.same rfl rfl id) hp ?_
        refine ⟨h.size, h.decoder, h.fits.imp id fun f => ⟨f.held, fun _ => ?_, f.log⟩, h.onHeaders, h.onContent, h.onFinished⟩
        have := f.held
        show c.d.content.length + (List.take (n - c.d.content.length) c.sock.rx).length ≤ n
        rw [List.length_take]
        omega

end

theorem step_roomy {env : ClientEnv} (hz : env.inflate = none ∨ Q) (fuel : Nat) {c : Client} (ht : Top c) (hn : 0 < n) (h : Room Q n B 0 c) {i : CInput} (hi : ∀ j, i ≠ .call (.setReadBufferSize j)) : Room Q n B 0 (c.step env fuel i) := by
  have he := emit_roomy (Q := Q) (n := n) (B := B) env fuel
  have hf := emit_framed env fuel
  have hg := emit_log env fuel
  have hkp := emit_keeps env fuel
  cases i with
  | call u => exact (call_roomy he env ⟨h, Or.inl rfl⟩ fun j e => hi j (by rw [e])).1
  | connected =>
    show Room Q n B 0 (if c.sock.state = .connecting then { c with sock := { c.sock with state := .connected } }.sendRequest else c)
    split
    · exact (sendRequest_roomy (c := { c with sock := { c.sock with state := .connected } }) ⟨h.same rfl (Or.inl rfl) id (Or.inl rfl) rfl rfl rfl, Or.inl rfl⟩).1
    · exact h
  | error rc => exact (deviceError_roomy he ⟨h, Or.inl rfl⟩ rc).1
  | arrive bs =>
    show Room Q n B 0 (if c.sock.state = .connected ∨ c.sock.state = .closing then { c with sock := { c.sock with rx := c.sock.rx ++ bs } } else c)
    split
    · exact h.same rfl (Or.inl rfl) id (Or.inl rfl) rfl rfl rfl
    · exact h
  | readyRead => exact readyRead_roomy hz he hf hg hkp ht hn h
  | disconnected => exact h.same rfl (Or.inl rfl) id (Or.inl rfl) rfl rfl rfl
  | unsent u => exact h.same rfl (Or.inl rfl) id (Or.inl rfl) rfl rfl rfl
  | timeout =>
    show Room Q n B 0 (if c.timers = 0 then c else { c with timers := c.timers - 1 }.readyRead env (Client.emit env fuel))
    split
    · exact h
    · exact readyRead_roomy hz he hf hg hkp (c := { c with timers := c.timers - 1 }) (ht.same rfl rfl id) hn (h.same rfl (Or.inl rfl) id (Or.inl rfl) rfl rfl rfl)
  | tick ms => exact h.same rfl (Or.inl rfl) id (Or.inl rfl) rfl rfl rfl

theorem run_roomy {env : ClientEnv} (hz : env.inflate = none ∨ Q) (fuel : Nat) (hn : 0 < n) : ∀ (is : List CInput) {c : Client}, Top c → Room Q n B 0 c → (∀ j, .call (.setReadBufferSize j) ∉ is) → Room Q n B 0 (c.run env fuel is)
  | [], _, _, h, _ => h
  | i :: is, _, ht, h, hi => run_roomy hz fuel hn is (ht.step env fuel i) (step_roomy hz fuel ht hn h fun j e => hi j (by simp [e])) fun j hj => hi j (by simp [hj])

end Pillow
