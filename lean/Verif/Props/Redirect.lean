import Verif.Lemmas.ClientOrigin
import Verif.Props.Client
/-!
# C61: what the client shows between responses; redirections
-/
namespace Pillow.Props
open Pillow.Spec

theorem run_o (env : ClientEnv) (fuel : Nat) (onH onC onF : List (List UserCall)) (onK : List SockReply) (inputs : List CInput) :
    OInv env (Asked (onH ++ onC ++ onF) inputs) ((Client.new onH onC onF onK).run env fuel inputs) :=
  OInv.run fuel inputs (new_o onK fun calls hc r hr => Or.inl ⟨calls, hc, hr⟩) (new_top onH onC onF onK) fun _ hr => Or.inr hr

/-- **C61**: in every run, from the `finished()` of a request until the next one is accepted, `statusCode()`, `headers()` and `content()` return what they returned in
`finished()`, except for consumed content; before the first request they return 0 and nothing. -/
theorem C61_accessors (env : ClientEnv) (fuel : Nat) (onH onC onF : List (List UserCall)) (onK : List SockReply) (inputs : List CInput) :
    let c := (Client.new onH onC onF onK).run env fuel inputs
    ∃ x, Current c.log x ∧ (c.responsePending = true ↔ ∃ r, x = some (r, none)) ∧
      (x = none → c.shows .finished = .finished c.error 0 [] []) ∧
      (∀ r v, x = some (r, some v) → c.shows .finished = .finished c.error v.status v.headers v.content) := by
  intro c
  obtain ⟨x, h1, h2, h3⟩ := (run_o env fuel onH onC onF onK inputs).cur
  refine ⟨x, h1, ⟨fun hp => ⟨_, h2 hp⟩, ?_⟩, ?_, ?_⟩
  · rintro ⟨r, hr⟩
    by_cases hp : c.responsePending = true
    · exact hp
    · rcases h3 (by simpa using hp) with ⟨e, -⟩ | e
      · rw [e] at hr; cases hr
      · rw [e] at hr; cases hr
  · intro hx
    by_cases hp : c.responsePending = true
    · rw [h2 hp] at hx; cases hx
    · rcases h3 (by simpa using hp) with ⟨-, -, e⟩ | e
      · show CEv.finished c.error c.view.status c.view.headers c.view.content = _
        rw [e]
      · rw [e] at hx; cases hx
  · intro r v hx
    by_cases hp : c.responsePending = true
    · rw [h2 hp] at hx; cases hx
    · rcases h3 (by simpa using hp) with ⟨e, -⟩ | e
      · rw [e] at hx; cases hx
      · rw [e] at hx; cases hx; rfl

/-- **C61**: every request that is accepted or put off is one that the application has asked for, or follows the redirection shown by the response to the previous
request: the same method, headers and data, and the url of the first `Location` header. -/
theorem C61_origin (env : ClientEnv) (fuel : Nat) (onH onC onF : List (List UserCall)) (onK : List SockReply) (inputs : List CInput) (l₁ l₂ : List CEv) (r : ClientRequest)
    (h : ((Client.new onH onC onF onK).run env fuel inputs).log = l₁ ++ .accepted r :: l₂ ∨ ((Client.new onH onC onF onK).run env fuel inputs).log = l₁ ++ .deferred r :: l₂) :
    Asked (onH ++ onC ++ onF) inputs r ∨ ∃ q v, Current l₁ (some (q, some v)) ∧ Follows env q v r :=
  h.elim ((run_o env fuel onH onC onF onK inputs).just.accepted l₁ r l₂) ((run_o env fuel onH onC onF onK inputs).just.deferred l₁ r l₂)

/-- **C61**: whenever `followRedirection()` is called, in a slot or not, after a response that is a redirection, the request that follows it is accepted at once, or
put off (to be accepted when the slot has returned: `C38_deferred_partial`). -/
theorem C61_followed (env : ClientEnv) (fuel : Nat) (onH onC onF : List (List UserCall)) (onK : List SockReply) (inputs : List CInput) (l₁ l₂ : List CEv)
    (q r : ClientRequest) (v : View) (h : ((Client.new onH onC onF onK).run env fuel inputs).log = l₁ ++ .followRedirection :: l₂) (hc : Current l₁ (some (q, some v)))
    (hf : Follows env q v r) : ∃ l₃, l₂ = .accepted r :: l₃ ∨ l₂ = .deferred r :: l₃ :=
  (run_o env fuel onH onC onF onK inputs).just.follow l₁ l₂ q v r h hc hf

theorem snocInd {α : Type} {P : List α → Prop} (nil : P []) (append_singleton : ∀ l a, P l → P (l ++ [a])) (l : List α) : P l := by
  rw [← List.reverse_reverse l]
  induction l.reverse with
  | nil => exact nil
  | cons a l ih => rw [List.reverse_cons]; exact append_singleton _ _ ih

theorem current_prefix {l k : List CEv} {x : Option (ClientRequest × Option View)} (h : Current (l ++ k) x) : ∃ y, Current l y := by
  induction k using snocInd generalizing x with
  | nil => rw [List.append_nil] at h; exact ⟨x, h⟩
  | append_singleton k e ih =>
    rw [← List.append_assoc] at h
    generalize hg : l ++ k ++ [e] = z at h
    cases h with
    | nil => simp at hg
    | accepted _ h | finished _ _ _ _ h | consumed h | early _ h | never h | other _ _ _ _ h => rw [← (snoc_inj hg).1] at h; exact ih h

theorem current_later {l k : List CEv} {r : ClientRequest} {w : Option View} {x : Option (ClientRequest × Option View)} (h : Current l (some (r, w))) (h' : Current (l ++ k) x)
    (ha : ∀ q, .accepted q ∉ k) : ∃ w', x = some (r, w') ∧ ((∀ e st hs ct, .finished e st hs ct ∉ k) → ∀ v, w = some v → ∃ ct, w' = some ⟨v.status, v.headers, ct⟩) := by
  induction k using snocInd generalizing x with
  | nil =>
    rw [List.append_nil] at h'
    exact ⟨w, h'.unique h rfl, fun _ v e => ⟨v.content, e⟩⟩
  | append_singleton k e ih =>
    rw [← List.append_assoc] at h'
    have ha' : ∀ q, .accepted q ∉ k := fun q hq => ha q (by simp [hq])
    generalize hg : l ++ k ++ [e] = z at h'
    cases h' with
    | nil => simp at hg
    | accepted q _ => exact absurd (by rw [(snoc_inj hg).2]; simp) (ha q)
    | finished x st hs ct h1 =>
      rw [← (snoc_inj hg).1] at h1
      obtain ⟨w', e1, e2⟩ := ih h1 ha'
      cases e1
      exact ⟨_, rfl, fun hn => absurd (by rw [(snoc_inj hg).2]; simp) (hn x st hs ct)⟩
    | consumed h1 =>
      rw [← (snoc_inj hg).1] at h1
      obtain ⟨w', e1, e2⟩ := ih h1 ha'
      cases e1
      refine ⟨_, rfl, fun hn v hv => ?_⟩
      obtain ⟨ct, e3⟩ := e2 (fun a b c d hm => hn a b c d (by simp [hm])) v hv
      cases e3
      exact ⟨[], rfl⟩
    | early ct h1 =>
      rw [← (snoc_inj hg).1] at h1
      obtain ⟨w', e1, e2⟩ := ih h1 ha'
      cases e1
      exact ⟨_, rfl, fun hn v hv => e2 (fun a b c d hm => hn a b c d (by simp [hm])) v hv⟩
    | never h1 =>
      rw [← (snoc_inj hg).1] at h1
      obtain ⟨w', e1, e2⟩ := ih h1 ha'
      cases e1
    | other e' _ _ _ h1 =>
      rw [← (snoc_inj hg).1] at h1
      obtain ⟨w', e1, e2⟩ := ih h1 ha'
      exact ⟨w', e1, fun hn v hv => e2 (fun a b c d hm => hn a b c d (by simp [hm])) v hv⟩

/-- **C61**: after the response to a request `r` with a redirection (and as long as no other request is accepted), `followRedirection()` makes the same request to the
url of its first `Location` header; it is accepted at once.  After any other response it does nothing. -/
theorem C61_follow (env : ClientEnv) (fuel : Nat) (onH onC onF : List (List UserCall)) (onK : List SockReply) (inputs : List CInput) (l₀ l₁ l₂ : List CEv) (r : ClientRequest)
    (e : CError) (st : Nat) (hs : Headers) (ct : Bytes) :
    let c := (Client.new onH onC onF onK).run env fuel inputs
    c.log = l₀ ++ .accepted r :: l₁ ++ .finished e st hs ct :: l₂ → (∀ q, .accepted q ∉ l₁ ++ l₂) → (∀ e st hs ct, .finished e st hs ct ∉ l₂) →
    (Redirects st → ∀ loc, Location hs loc →
      c.log ++ [.followRedirection, .accepted ⟨r.method, env.parseUrl loc, r.headers, r.data⟩] <+: (c.step env fuel (.call .followRedirection)).log) ∧
    (¬ Redirects st → c.step env fuel (.call .followRedirection) = c.add .followRedirection) := by
  intro c hlog hna hnf
  obtain ⟨x, h1, h2, h3⟩ := (run_o env fuel onH onC onF onK inputs).cur
  have hpar : c.parsing = false := (Top.run env fuel inputs (new_top onH onC onF onK)).parsing
  have hx : ∃ ct', x = some (r, some ⟨st, hs, ct'⟩) := by
    have h1 : Current (l₀ ++ .accepted r :: l₁ ++ .finished e st hs ct :: l₂) x := by rw [← hlog]; exact h1
    have e1 : l₀ ++ .accepted r :: l₁ ++ .finished e st hs ct :: l₂ = (l₀ ++ [.accepted r]) ++ (l₁ ++ .finished e st hs ct :: l₂) := by simp
    have e2 : l₀ ++ .accepted r :: l₁ ++ .finished e st hs ct :: l₂ = (l₀ ++ [.accepted r] ++ l₁ ++ [.finished e st hs ct]) ++ l₂ := by simp
    have e3 : l₀ ++ [.accepted r] ++ l₁ ++ [.finished e st hs ct] = (l₀ ++ [.accepted r]) ++ (l₁ ++ [.finished e st hs ct]) := by simp
    obtain ⟨y0, hy0⟩ := current_prefix (l := l₀) (k := .accepted r :: (l₁ ++ .finished e st hs ct :: l₂)) (by simpa using h1)
    have hA : Current (l₀ ++ [.accepted r]) (some (r, none)) := .accepted r hy0
    obtain ⟨y1, hy1⟩ := current_prefix (l := l₀ ++ [.accepted r] ++ l₁) (k := .finished e st hs ct :: l₂) (by simpa using h1)
    obtain ⟨w, rfl, -⟩ := current_later hA hy1 (fun q hq => hna q (by simp [hq]))
    have hF := Current.finished e st hs ct hy1
    obtain ⟨w', hw1, hw2⟩ := current_later hF (e2 ▸ h1) (fun q hq => hna q (by simp [hq]))
    obtain ⟨ct', hc'⟩ := hw2 hnf _ rfl
    exact ⟨ct', by rw [hw1, hc']⟩
  obtain ⟨ct', rfl⟩ := hx
  have hp : c.responsePending = false := by
    by_cases hp : c.responsePending = true
    · have := h2 hp; cases this
    · simpa using hp
  obtain ⟨hreq, hview⟩ : c.request = r ∧ c.view = ⟨st, hs, ct'⟩ := by
    rcases h3 hp with ⟨h4, -⟩ | h4
    · cases h4
    · cases h4; exact ⟨rfl, rfl⟩
  have hst : c.view.status = st := by rw [hview]
  have hff := follows_iff env c
  refine ⟨fun hr loc hloc => ?_, fun hr => ?_⟩
  · have hw : Follows env c.request c.view ⟨r.method, env.parseUrl loc, r.headers, r.data⟩ := by
      rw [hreq, hview]; exact ⟨hr, loc, hloc, rfl⟩
    obtain ⟨k1, k2⟩ := (hff _).1 hw
    show _ <+: (c.followRedirection env (Client.emit env fuel)).log
    unfold Client.followRedirection
    dsimp only
    rw [if_neg (by show ¬ (!c.redirected) = true; simp [k1]), makeRequest_accept (c := c.add .followRedirection) hp hpar]
    have k3 : ({ (c.add .followRedirection).request with url := env.parseUrl (c.add .followRedirection).redirectionLocation } : ClientRequest) = ⟨r.method, env.parseUrl loc, r.headers, r.data⟩ := k2.symm
    rw [k3]
    have := accept_log (emit_log env fuel) (c.add .followRedirection) ⟨r.method, env.parseUrl loc, r.headers, r.data⟩
    simpa [Client.add] using this
  · have hn : ¬ c.redirected = true := by
      intro h
      have := ((hff _).2 ⟨h, rfl⟩).1
      rw [hst] at this
      exact hr this
    show c.followRedirection env (Client.emit env fuel) = _
    unfold Client.followRedirection
    dsimp only
    rw [if_pos (by show (!c.redirected) = true; simpa using hn)]

/-- **C61**: while a response is awaited, `followRedirection()` makes no request. -/
theorem C61_pending (env : ClientEnv) (fuel : Nat) (c : Client) (hp : c.responsePending = true) :
    c.step env fuel (.call .followRedirection) = c.add .followRedirection ∨ ∃ r, c.step env fuel (.call .followRedirection) = (c.add .followRedirection).add (.refused r) := by
  show c.followRedirection env (Client.emit env fuel) = _ ∨ ∃ r, c.followRedirection env (Client.emit env fuel) = _
  unfold Client.followRedirection
  dsimp only
  split
  · exact Or.inl rfl
  · unfold Client.makeRequest
    rw [if_pos (by exact hp)]
    exact Or.inr ⟨_, rfl⟩

/-! A redirection followed in `finished()`, and one followed later. -/

def demoMoved : Bytes := b!"HTTP/1.1 302 Found\r\nX: y\r\nLOCATION: http://i/x\r\nLocation: http://j/\r\nContent-Length: 2\r\n\r\nab"
def demoUrls : ClientEnv := ⟨none, fun u => if u = b!"http://i/x" then { host := b!"i", path := b!"/x" } else {}⟩
def demoPost : ClientRequest := { demoReq b!"POST" with headers := [⟨b!"A", b!"b"⟩], data := b!"xyz" }
def demoMovedRun : List CInput := [.call (.request demoPost), .connected, .arrive demoMoved, .readyRead]

/-- The requests in a record. -/
def requestsIn (l : List CEv) : List CEv := l.filter fun | .accepted _ | .deferred _ | .refused _ | .followRedirection | .connectToHost .. => true | _ => false

example : let c := (Client.new [[.followRedirection]] [] [[.followRedirection]] []).run demoUrls 1 demoMovedRun
    requestsIn c.log = [.accepted demoPost, .connectToHost b!"h" 80, .followRedirection, .refused { demoPost with url := { host := b!"i", path := b!"/x" } }, .followRedirection,
      .deferred { demoPost with url := { host := b!"i", path := b!"/x" } }, .accepted { demoPost with url := { host := b!"i", path := b!"/x" } }, .connectToHost b!"i" 80] := by
  decide +kernel

example : let c := (Client.new [] [] [[.consumeContent]] []).run demoUrls 1 demoMovedRun
    (∃ l₁ l₂, c.log = [] ++ .accepted demoPost :: l₁ ++ .finished .noError 302 [⟨b!"X", b!"y"⟩, ⟨b!"LOCATION", b!"http://i/x"⟩, ⟨b!"Location", b!"http://j/"⟩, ⟨b!"Content-Length", b!"2"⟩] b!"ab" :: l₂ ∧
      (∀ q, .accepted q ∉ l₁ ++ l₂) ∧ (∀ e st hs ct, .finished e st hs ct ∉ l₂)) ∧
    Redirects 302 ∧ Location [⟨b!"X", b!"y"⟩, ⟨b!"LOCATION", b!"http://i/x"⟩, ⟨b!"Location", b!"http://j/"⟩, ⟨b!"Content-Length", b!"2"⟩] b!"http://i/x" ∧
    requestsIn (c.step demoUrls 1 (.call .followRedirection)).log = [.accepted demoPost, .connectToHost b!"h" 80, .followRedirection,
      .accepted { demoPost with url := { host := b!"i", path := b!"/x" } }, .connectToHost b!"i" 80] := by
  refine ⟨⟨[.connectToHost b!"h" 80, .write (b!"h", 80) b!"POST / HTTP/1.1\r\nHost: h\r\nA: b\r\nContent-Length: 3\r\n\r\nxyz",
      .headersCompleted 302 [⟨b!"X", b!"y"⟩, ⟨b!"LOCATION", b!"http://i/x"⟩, ⟨b!"Location", b!"http://j/"⟩, ⟨b!"Content-Length", b!"2"⟩], .contentReadyRead b!"ab"],
    [.consumed b!"ab"], by decide +kernel, by simp, by simp⟩, by simp [Redirects], Or.inl ⟨[⟨b!"X", b!"y"⟩], _, _, rfl, by decide, by decide, rfl⟩, by decide +kernel⟩

end Pillow.Props
