import Verif.Props.Proxy
import Verif.Props.Exchange
import Verif.Props.Cut
import Verif.Spec.ProxyTrip
/-!
# C94: a client behind the proxy
-/
namespace Pillow.Props
open Pillow Pillow.Spec

theorem wire_onlyRecv {p : List Ev} (hp : OnlyRecv p) (q : List Ev) : wireOf (p ++ q) = wireOf q := by
  induction p with
  | nil => rfl
  | cons e p ih =>
    obtain ⟨bs, rfl⟩ := hp e (by simp)
    rw [List.cons_append, wireOf_cons, ih (fun e he => hp e (by simp [he]))]
    rfl

theorem noHead_relay {h : RespHead} {b : List Ev} (hr : Relay h b) : NoHead b := by
  intro e he h' heq
  subst heq
  rcases hr _ he with ⟨_, k⟩ | ⟨_, k, _⟩ | ⟨_, k, _⟩ <;> cases k

theorem asked_version {env : ClientEnv} {fuel : Nat} {c : Client} {r : ReqView} (h : Inquires env fuel c r) : VersionOf r b!"1" b!"1" := by
  obtain ⟨host, -, hrec⟩ := h.delivered
  exact ⟨by rw [hrec.2.2.1]; rfl, ⟨1, by decide +kernel, by decide⟩, ⟨1, by decide +kernel, by decide⟩⟩

theorem ended_relay {p₁ p₂ : List Ev} (h : RespHead) (h1 : OnlyRecv p₁) (h2 : NotEnded p₂) : NotEnded (p₁ ++ .head h :: p₂) := by
  intro e he
  rcases List.mem_append.1 he with he | he
  · obtain ⟨bs, rfl⟩ := h1 e he
    exact ⟨by simp, by simp⟩
  · rcases List.mem_cons.1 he with rfl | he
    · exact ⟨by simp, by simp⟩
    · exact h2 e he

/-- The head the proxy sends, in the grammar of responses. -/
theorem relayed_head {u : Upstream} {a : List Ev} {r : ReqView} {x : Piped} (hx : RelayedToTheEnd u a r x) (hu : Presentable u r) (hv : VersionOf r b!"1" b!"1")
    {p₁ p₂ d : List Ev} {h : RespHead} (h1 : x.s.c.log = a ++ p₁ ++ .head h :: p₂ ++ d) (h2 : OnlyRecv p₁) (h3 : HeadSpec r (-1) u.status u.headers h) (hl : -1 ≤ h.len ∧ h.len < 2147483648) :
    ∃ H : RHead, H.Wf ∧ H.render = h.bytes ∧ num H.status = u.status.toNat ∧ num H.status ≠ 100 ∧
      H.shown = sentHeaders r u.headers ((if h.len = -1 then none else some h.len.toNat).map (digits 10)) h.keepAlive h.chunked ∧
      (H.IsChunked ↔ h.chunked = true) ∧ H.announced = (if h.len = -1 then none else some h.len.toNat) := by
  have hr := (piping_ok hx.piping hx.alive).1
  have hlast : (readys (a ++ p₁)).getLast? = some r := withHandler_readys (withHandler_recv (piping_handler hx.piping) h2)
  obtain ⟨H, g1, g2, g3, g4, g5, g6⟩ := head_grammar x.s hr (a ++ p₁) (p₂ ++ d) h (by rw [h1]; simp) r hlast (by rw [h3.code]; exact hu.status) hl hv (by rw [h3.hdrs]; exact hu.plain) (hu.size h h3)
  rw [h3.code] at g3
  rw [h3.hdrs] at g4
  refine ⟨H, g1, g2, g3, ?_, g4, g5, g6⟩
  have hpos : ∀ c ∈ rfcCodes, 0 < c := by decide
  have := hpos _ hu.status
  have := hu.final
  omega

theorem shown_gzip {r : ReqView} {hs shown : Headers} {len : Option Bytes} {keep chunked : Bool} (e : shown = sentHeaders r hs len keep chunked) (h : Gzipped shown) : Gzipped hs := by
  obtain ⟨y, hy, hy1, hy2⟩ := h
  rw [e] at hy
  exact ⟨y, sent_gzip hy hy1, hy1, hy2⟩

theorem chunk_le {b : List Ev} {bs : Bytes} (h : .chunk bs ∈ b) : bs.length ≤ (contentOf b).length := by
  induction b with
  | nil => cases h
  | cons e b ih =>
    rw [contentOf_cons, List.length_append]
    rcases List.mem_cons.1 h with rfl | h
    · have : Ev.content (.chunk bs) = bs := rfl
      rw [this]; omega
    · have := ih h; omega

theorem whole_well {u : Upstream} {a : List Ev} {r : ReqView} {x : Piped} (hx : WholeReply u a r x) : Piping u a r x ∧ Reach Proper x.s ∧
    ∃ p₁ h p₂ d, x.s.c.log = a ++ p₁ ++ .head h :: p₂ ++ .completed :: d ∧ OnlyRecv p₁ ∧ HeadSpec r (-1) u.status u.headers h ∧ Relay h p₂ ∧ NotEnded p₂ ∧
      (r.method = b!"HEAD" ∨ contentOf p₂ = x.arrived) := by
  rcases hx.relayed with ⟨k, hall⟩ | k
  · refine ⟨k.piping, (piping_ok k.piping k.alive).1, ?_⟩
    obtain ⟨p₁, h, p₂, d, h1, h2, h3, h4, h5, h6⟩ := ended_well k.piping k.alive k.finished k.status k.idle k.kept k.honest k.read
    have hl : h.len = declaredLength (-1) u.headers := h3.len
    rcases h6 with ⟨⟨d', rfl⟩, k⟩ | ⟨-, k1, -, k2, -⟩
    · exact ⟨p₁, h, p₂, d', h1, h2, h3, h4, h5, k.imp id (·.2.2)⟩
    · have := hx.declared
      rcases hall with k | k
      · exact absurd k k1
      · omega
  · refine ⟨k.piping, (piping_ok k.piping k.alive).1, ?_⟩
    obtain ⟨p₁, h, p₂, d, h1, h2, h3, h4, h5, h6⟩ := reached_well k.piping k.alive k.back k.kept k.read k.content k.whole k.good
    exact ⟨p₁, h, p₂, d, h1, h2, h3, h4, h5, h6.imp id (·.2.2)⟩

/-- **C94**, a reply of declared length that was relayed as a whole: the response of the proxy is completed, and a client that receives what was sent, in any pieces, reports the status, the headers and the content of the reply of
upstream, without an error.
Partial: replies of no declared length are never reported without an error, see `C94_until_closed_violation` and `C94_chunked_violation`. -/
theorem C94_known_partial (u : Upstream) (a : List Ev) (r : ReqView) (x : Piped) (hx : WholeReply u a r x) (hu : Presentable u r)
    (env : ClientEnv) (fuel : Nat) (c : Client) (hc : Inquires env fuel c r) (hw : Awaiting c) (hz : ¬ Gzipped u.headers ∨ env.inflate = none) :
    ∃ p d, x.s.c.log = a ++ p ++ .completed :: d ∧ NotEnded p ∧
      ∀ (segs : List Bytes) (inputs : List CInput), Arrive segs inputs → segs.flatten = wireOf p →
        (∃ h hs, HeadSpec r (-1) u.status u.headers h ∧ HeadersOf r h hs ∧ ReportsAs c.log (c.run env fuel inputs).log u.status.toNat hs (if r.method = b!"HEAD" then [] else x.arrived)) ∧
        WellServed env fuel (c.run env fuel inputs) := by
  obtain ⟨hpipe, hr, p₁, h, p₂, d', h1, h2, h3, h4, h5, h6⟩ := whole_well hx
  have ha := piping_handler hpipe
  have hl : h.len = declaredLength (-1) u.headers := h3.len
  have hlast : (readys (a ++ p₁)).getLast? = some r := withHandler_readys (withHandler_recv ha h2)
  have hnh := noHead_relay h4
  refine ⟨p₁ ++ .head h :: p₂, d', by rw [h1]; simp, ended_relay h h2 h5, fun segs inputs hs hsf => ?_⟩
  have hcont : contentOf p₂ = if r.method = b!"HEAD" then [] else x.arrived := by
    split
    · rename_i hm
      exact (head_silent hr h1 hnh hlast hm).1
    · rename_i hm
      exact h6.resolve_left hm
  rw [← hcont]
  have hst : h.status = u.status := h3.code
  have hhd : h.headers = u.headers := h3.hdrs
  have k := C58_answer x.s hr (a ++ p₁) p₂ d' h r h1 hnh hlast (.inl (by rw [hl]; exact hx.declared)) (by rw [hst]; exact hu.status) (by rw [hst]; exact hu.final) (asked_version hc)
    (by rw [hhd]; exact hu.plain) (hu.size h h3) env fuel c hc.served hw (delivered_head hc.delivered hc.askable) segs inputs hs (by rw [hsf, wire_onlyRecv h2]) (by rw [hhd]; exact hz)
  obtain ⟨⟨hs', k1, k2⟩, k3⟩ := k
  rw [hst] at k2
  exact ⟨⟨h, hs', h3, k1, k2⟩, k3⟩

/-- **C94**, a reply of no declared length, not in chunks, with a status that has no content (204 or 304), of which no content has arrived: the response of the proxy ends with its connection, and the client reports the reply at once. -/
theorem C94_no_content (u : Upstream) (a : List Ev) (r : ReqView) (x : Piped) (hx : RelayedToTheEnd u a r x) (hu : Presentable u r)
    (hlen : declaredLength (-1) u.headers = -1) (hnc : ¬ HandlerChunks u.headers) (hno : Spec.NoContent u.status.toNat) (hnone : x.arrived = [])
    (env : ClientEnv) (fuel : Nat) (c : Client) (hc : Inquires env fuel c r) (hw : Awaiting c) (hz : ¬ Gzipped u.headers ∨ env.inflate = none) :
    ∃ p d, x.s.c.log = a ++ p ++ d ∧ NotEnded p ∧ d ≠ [] ∧
      ∀ (segs : List Bytes) (inputs : List CInput), Arrive segs inputs → segs.flatten = wireOf p →
        (∃ h, HeadSpec r (-1) u.status u.headers h ∧ ReportsAs c.log (c.run env fuel inputs).log u.status.toNat (sentHeaders r u.headers none h.keepAlive false) []) ∧
        WellServed env fuel (c.run env fuel inputs) := by
  obtain ⟨p₁, h, p₂, d, h1, h2, h3, h4, h5, h6⟩ := ended_well hx.piping hx.alive hx.finished hx.status hx.idle hx.kept hx.honest hx.read
  have hl : h.len = -1 := by rw [h3.len, hlen]
  have hch : h.chunked = false := by
    cases k : h.chunked with
    | false => rfl
    | true => exact absurd (h3.chunked.1 k).2.2 hnc
  obtain ⟨H, g1, g2, g3, g4, g5, g6, g7⟩ := relayed_head hx hu (asked_version hc) h1 h2 h3 (by omega)
  rw [if_pos hl] at g5 g7
  rw [Option.map_none] at g5
  rw [hch] at g5
  have hcont : contentOf p₂ = [] := by
    rcases h6 with ⟨⟨d', rfl⟩, k⟩ | ⟨-, -, k, -⟩
    · have hr := (piping_ok hx.piping hx.alive).1
      rcases k with k | ⟨-, -, k⟩
      · exact (head_silent hr h1 (noHead_relay h4) (withHandler_readys (withHandler_recv (piping_handler hx.piping) h2)) k).1
      · rw [k, hnone]
    · rw [k, hnone]
  have hd : d ≠ [] := by
    rcases h6 with ⟨⟨d', rfl⟩, -⟩ | ⟨⟨v, d', rfl⟩, -⟩ <;> simp
  refine ⟨p₁ ++ .head h :: p₂, d, by rw [h1]; simp, ended_relay h h2 h5, hd, fun segs inputs hs hsf => ?_⟩
  have hM : Answers c.request ⟨H, [], []⟩ := ⟨fun _ => ⟨g1, .none (fun k => absurd (g6.1 k) (by rw [hch]; simp)) g7 (by rw [g3]; exact hno)⟩, fun _ => ⟨g1, rfl, rfl⟩⟩
  have hren : segs.flatten = Response.render ⟨H, [], []⟩ := by
    rw [hsf, wire_onlyRecv h2, wireOf_cons, relay_wire h4 hch, hcont]
    show h.bytes ++ [] = H.render ++ []
    rw [g2]
  refine ⟨⟨h, h3, ?_⟩, C56_and_again env fuel c hc.served hw _ hM g4 segs inputs hs hren⟩
  have k := reports_as (C56_reports_the_response env fuel c hc.served hw _ hM g4 segs inputs hs hren) (hz.imp (fun hz hg => hz (shown_gzip g5 hg)) Or.inl)
  rw [← g3, ← g5]
  exact k

/-- **C94** fails for every other reply of no declared length that is not relayed in chunks, unless the request is HEAD: the client gets all of it, but when the proxy closes the connection, which is the end of the response, it reports an error. -/
theorem C94_until_closed_violation (u : Upstream) (a : List Ev) (r : ReqView) (x : Piped) (hx : RelayedToTheEnd u a r x) (hu : Presentable u r) (hm : r.method ≠ b!"HEAD")
    (hlen : declaredLength (-1) u.headers = -1) (hnc : ¬ HandlerChunks u.headers) (hno : ¬ Spec.NoContent u.status.toNat)
    (env : ClientEnv) (fuel : Nat) (c : Client) (hc : Inquires env fuel c r) (hw : Expecting c) (hz : ¬ Gzipped u.headers ∨ env.inflate = none) :
    ∃ p v d, x.s.c.log = a ++ p ++ .closed true v :: d ∧ NotEnded p ∧
      ∀ (inputs : List CInput), (∀ i ∈ inputs, Steady i) → incoming inputs = wireOf p →
        let c' := c.run env fuel inputs
        c'.responsePending = true ∧ (c'.sock.rx = [] → ∃ h hs l ct l', HeadSpec r (-1) u.status u.headers h ∧ hs = sentHeaders r u.headers none h.keepAlive false ∧
          (c.run env fuel (inputs ++ [.error true])).log = c.log ++ l ++ .close :: .finished .remoteHostClosed u.status.toNat hs ct :: l' ∧
          signals l = [.headersCompleted u.status.toNat hs] ∧ taken l ++ ct = x.arrived) := by
  obtain ⟨p₁, h, p₂, d, h1, h2, h3, h4, h5, h6⟩ := ended_well hx.piping hx.alive hx.finished hx.status hx.idle hx.kept hx.honest hx.read
  have hl : h.len = -1 := by rw [h3.len, hlen]
  have hch : h.chunked = false := by
    cases k : h.chunked with
    | false => rfl
    | true => exact absurd (h3.chunked.1 k).2.2 hnc
  obtain ⟨H, g1, g2, g3, g4, g5, g6, g7⟩ := relayed_head hx hu (asked_version hc) h1 h2 h3 (by omega)
  rw [if_pos hl] at g5 g7
  rw [Option.map_none] at g5
  rw [hch] at g5
  rcases h6 with ⟨-, k | ⟨k, -⟩⟩ | ⟨⟨v, d', rfl⟩, -, k3, -⟩
  · exact absurd k hm
  · omega
  refine ⟨p₁ ++ .head h :: p₂, v, d', by rw [h1]; simp, ended_relay h h2 h5, fun inputs hst hin => ?_⟩
  have hnck : ¬ H.IsChunked := fun k => absurd (g6.1 k) (by rw [hch]; simp)
  have hL : Lasts c.request H x.arrived inputs :=
    ⟨fun k => hm ((delivered_head hc.delivered hc.askable).2 k), g1, ⟨hnck, g7, by rw [g3]; exact hno⟩, g4, hst, by
      rw [hin, wire_onlyRecv h2, wireOf_cons, relay_wire h4 hch, k3, g2]; rfl⟩
  refine ⟨(C62_content env fuel c hc.served hw H x.arrived inputs hL).1, fun hrx => ?_⟩
  obtain ⟨⟨l, ct, l', all, q1, q2, q3, -, q5⟩, -⟩ := C62_closed env fuel c hc.served hw H x.arrived inputs hL hrx true
  have hall : all = x.arrived := q5.2 (hz.imp (fun hz hg => hz (shown_gzip g5 hg)) Or.inl)
  rw [g3, g5] at q1 q2
  exact ⟨h, _, l, ct, l', h3, rfl, q1, q2, q3.trans hall⟩

/-- **C94** fails for every reply relayed in chunks, unless the request is HEAD: a client that receives all that the proxy sent never finishes the request without an error; when the proxy closes the connection, it reports an error. -/
theorem C94_chunked_violation (u : Upstream) (a : List Ev) (r : ReqView) (x : Piped) (hx : RelayedToTheEnd u a r x) (hu : Presentable u r) (hm : r.method ≠ b!"HEAD")
    (hlen : declaredLength (-1) u.headers = -1) (hck : HandlerChunks u.headers) (hsz : x.arrived.length < 2147483648)
    (env : ClientEnv) (fuel : Nat) (c : Client) (hc : Inquires env fuel c r) (hw : Expecting c) :
    ∃ p v d, x.s.c.log = a ++ p ++ .closed true v :: d ∧ NotEnded p ∧
      ∀ (inputs : List CInput), (∀ i ∈ inputs, Steady i) → incoming inputs = wireOf p →
        (∃ l, (c.run env fuel inputs).log = c.log ++ l ∧ ∀ y st hs ct, .finished y st hs ct ∉ l) ∧
        ∃ l st hs ct l', (c.run env fuel (inputs ++ [.error true])).log = c.log ++ l ++ .close :: .finished .remoteHostClosed st hs ct :: l' ∧ ∀ y st hs ct, .finished y st hs ct ∉ l := by
  obtain ⟨p₁, h, p₂, d, h1, h2, h3, h4, h5, h6⟩ := ended_well hx.piping hx.alive hx.finished hx.status hx.idle hx.kept hx.honest hx.read
  have hl : h.len = -1 := by rw [h3.len, hlen]
  have hv := asked_version hc
  have hch : h.chunked = true := h3.chunked.2 ⟨hv.1, hl, hck⟩
  obtain ⟨H, g1, g2, g3, g4, g5, g6, g7⟩ := relayed_head hx hu hv h1 h2 h3 (by omega)
  rcases h6 with ⟨-, k | ⟨k, -⟩⟩ | ⟨⟨v, d', rfl⟩, -, k3, -, k5⟩
  · exact absurd k hm
  · omega
  have hdec := k5 hch _ _ _ (lastChunk_wire [])
  have hbody : ChunkedBody (wireOf (p₂ ++ [.lastChunk])) (contentOf p₂ ++ []) := by
    refine chunked_body _ _ (fun e he => ?_) (by rw [wireOf_snoc]; simpa using hdec)
    rcases List.mem_append.1 he with he | he
    · rcases h4 e he with ⟨bs, rfl⟩ | ⟨bs, rfl, k⟩ | ⟨bs, rfl, -⟩
      · exact .inl ⟨bs, rfl⟩
      · rw [hch] at k; cases k
      · have := chunk_le he
        rw [k3] at this
        exact .inr (.inl ⟨bs, rfl, by omega⟩)
    · exact .inr (.inr (List.mem_singleton.1 he))
  refine ⟨p₁ ++ .head h :: p₂, v, d', by rw [h1]; simp, ended_relay h h2 h5, fun inputs hst hin => ?_⟩
  have hB : BreaksOff c.request [] ⟨H, wireOf (p₂ ++ [.lastChunk]), contentOf p₂ ++ []⟩ inputs Ev.lastChunk.wire :=
    ⟨by simp, by simp, answers_get (fun k => hm ((delivered_head hc.delivered hc.askable).2 k)) ⟨g1, .chunked _ _ (g6.2 hch) hbody⟩, g4, hst, by
      rw [hin, wire_onlyRecv h2, wireOf_cons]
      show (h.bytes ++ wireOf p₂) ++ _ = [] ++ (H.render ++ wireOf (p₂ ++ [.lastChunk]))
      rw [g2, wireOf_snoc]; simp, by decide⟩
  refine ⟨C63_not_finished env fuel c hc.served hw [] _ inputs _ hB, ?_⟩
  obtain ⟨l, st, hs, ct, l', all, q1, -, q3, -⟩ := C63_error env fuel c hc.served hw [] _ inputs _ hB true
  refine ⟨l, st, hs, ct, l', q1, fun y st hs ct hmem => ?_⟩
  have := q3.signals.subset (signals_mem hmem)
  simp at this

/-- **C94**, a reply of declared length of which upstream delivered less, although it did not fail: the client takes no part of it for the answer; when the proxy closes the connection, it reports an error. -/
theorem C94_short (u : Upstream) (a : List Ev) (r : ReqView) (x : Piped) (hx : RelayedToTheEnd u a r x) (hu : Presentable u r) (hm : r.method ≠ b!"HEAD")
    (hlen : declaredLength (-1) u.headers < 2147483648) (hshort : (x.arrived.length : Int) < declaredLength (-1) u.headers)
    (env : ClientEnv) (fuel : Nat) (c : Client) (hc : Inquires env fuel c r) (hw : Expecting c) :
    ∃ p v d, x.s.c.log = a ++ p ++ .closed true v :: d ∧ NotEnded p ∧
      ∀ (inputs : List CInput), (∀ i ∈ inputs, Steady i) → incoming inputs = wireOf p →
        (∃ l, (c.run env fuel inputs).log = c.log ++ l ∧ ∀ y st hs ct, .finished y st hs ct ∉ l) ∧
        ∃ l st hs ct l', (c.run env fuel (inputs ++ [.error true])).log = c.log ++ l ++ .close :: .finished .remoteHostClosed st hs ct :: l' ∧ ∀ y st hs ct, .finished y st hs ct ∉ l := by
  obtain ⟨p₁, h, p₂, d, h1, h2, h3, h4, h5, h6⟩ := ended_well hx.piping hx.alive hx.finished hx.status hx.idle hx.kept hx.honest hx.read
  have hl : h.len = declaredLength (-1) u.headers := h3.len
  have hch : h.chunked = false := by
    cases k : h.chunked with
    | false => rfl
    | true => have := (h3.chunked.1 k).2.1; omega
  obtain ⟨H, g1, g2, g3, g4, g5, g6, g7⟩ := relayed_head hx hu (asked_version hc) h1 h2 h3 (by omega)
  rw [if_neg (by omega)] at g7
  rcases h6 with ⟨-, k | ⟨k, -⟩⟩ | ⟨⟨v, d', rfl⟩, -, k3, -⟩
  · exact absurd k hm
  · omega
  refine ⟨p₁ ++ .head h :: p₂, v, d', by rw [h1]; simp, ended_relay h h2 h5, fun inputs hst hin => ?_⟩
  let pad : Bytes := List.replicate (h.len.toNat - x.arrived.length) 0
  have hpad : pad.length = h.len.toNat - x.arrived.length := List.length_replicate
  have hB : BreaksOff c.request [] ⟨H, x.arrived ++ pad, x.arrived ++ pad⟩ inputs pad :=
    ⟨by simp, by simp, answers_get (fun k => hm ((delivered_head hc.delivered hc.askable).2 k)) ⟨g1, .sized _ (fun k => absurd (g6.1 k) (by rw [hch]; simp)) (by
        rw [g7, List.length_append, hpad]; congr 1; omega)⟩, g4, hst, by
      rw [hin, wire_onlyRecv h2, wireOf_cons, relay_wire h4 hch, k3]
      show (h.bytes ++ x.arrived) ++ _ = [] ++ (H.render ++ (x.arrived ++ pad))
      rw [g2]; simp, by
      intro k
      rw [k] at hpad
      simp at hpad
      omega⟩
  refine ⟨C63_not_finished env fuel c hc.served hw [] _ inputs _ hB, ?_⟩
  obtain ⟨l, st, hs, ct, l', all, q1, -, q3, -⟩ := C63_error env fuel c hc.served hw [] _ inputs _ hB true
  refine ⟨l, st, hs, ct, l', q1, fun y st hs ct hmem => ?_⟩
  have := q3.signals.subset (signals_mem hmem)
  simp at this

/-- **C94**, upstream fails before anything was sent (or replies with a status from 400 on before any content): the client reports 503 without content. -/
theorem C94_unavailable (u : Upstream) (a b : List Ev) (r : ReqView) (x x' : Piped) (hx : Piping u a r x) (failed : Bool) (he : failed = true ∨ 400 ≤ u.status)
    (hs : x.step u (.finished failed) = some x') (hf : x'.s.c.fault = none) (hb : x.s.c.log = a ++ b) (hn : NothingSent b)
    (env : ClientEnv) (fuel : Nat) (c : Client) (hc : Inquires env fuel c r) (hw : Awaiting c) :
    ∃ s'' h, x'.s.run [.tau 0, .tau 0] = some s'' ∧ s''.c.log = x.s.c.log ++ [.head h, .completed] ∧
      ∀ (segs : List Bytes) (inputs : List CInput), Arrive segs inputs → segs.flatten = h.bytes →
        (∃ hs, HeadersOf r h hs ∧ ReportsAs c.log (c.run env fuel inputs).log 503 hs []) ∧ WellServed env fuel (c.run env fuel inputs) := by
  obtain ⟨h, s'', -, h3, h4, h5⟩ := (C44_failure_partial u a r x x' hx failed he hs hf).1 b hb hn
  have hx' : Piping u a r x' := .step x x' _ hx (fun m k => by cases k) hs
  have hr := call_reach (piping_ok hx' hf).1 (by simp) h4
  have hlast : (readys x.s.c.log).getLast? = some r := by rw [hb]; exact withHandler_readys (withHandler_recv (piping_handler hx) hn)
  have hl : h.len = 0 := by rw [h3.len]; decide +kernel
  have hv := asked_version hc
  refine ⟨s'', h, h4, h5, fun segs inputs hs hsf => ?_⟩
  have hsize : h.bytes.length ≤ 80 * 1024 - 2 := by
    obtain ⟨cl, k1, k2⟩ := h3.bytes
    have hch : h.chunked = false := by
      cases k : h.chunked with
      | false => rfl
      | true => have := (h3.chunked.1 k).2.1; omega
    rw [hl] at k1
    have hcl : cl = b!"Content-Length: 0\r\n" := by
      have : lengthLine 0 = some b!"Content-Length: 0\r\n" := by decide +kernel
      rw [this] at k1; cases k1; rfl
    have e1 : (statusLine r 503).length ≤ 64 := by unfold statusLine; rw [hv.1]; decide +kernel
    have e2 : (connectionHeader r h.keepAlive).length ≤ 64 := by unfold connectionHeader; split <;> (try split) <;> decide
    have e3 : (typeHeader [] h.len).length = 0 := by rw [hl]; decide
    have e4 : (encodingHeader [] h.chunked).length = 0 := by rw [hch]; decide
    have e5 : (otherLines []).length = 0 := by decide
    rw [k2, hcl]
    simp only [List.length_append, e3, e4, e5]
    have e6 : (b!"Content-Length: 0\r\n" : Bytes).length ≤ 64 := by decide
    have e7 : (b!"\r\n" : Bytes).length ≤ 64 := by decide
    omega
  have k := C58_answer s'' hr x.s.c.log [] [] h r (by rw [h5]; simp) (by intro e he; cases he) hlast (.inl (by omega)) (by rw [h3.code]; decide) (by rw [h3.code]; decide) hv
    (by rw [h3.hdrs]; simp) hsize env fuel c hc.served hw (delivered_head hc.delivered hc.askable) segs inputs hs (by rw [hsf]; simp [wireOf, Ev.wire]) (.inl (by rw [h3.hdrs]; rintro ⟨y, hy, -⟩; cases hy))
  rw [h3.code] at k
  exact k

/-! ### The hypotheses are met -/

/-- What `demoTaking` sends arrives, and the handler makes a pipe for it. -/
def tripRun (u : Upstream) (ls : List PLabel) : Option (Conf × Piped) :=
  (Conf.runIf Proper {} ([.init, .recv demoWire, .call .processInput] ++ taus 3)).bind fun s => (Piped.run u { s := s } ls).map fun x => (s, x)

theorem trip_demo {u : Upstream} {ls : List PLabel} {p : Conf → Piped → Bool} (hl : ls.all Plain = true)
    (h : (match tripRun u ls with
      | some (s, x) => (s.inEnv && s.c.fault == none && s.stack == [.env] && s.c.log.getLast? == some (.ready s.c.req)) && p s x
      | none => false) = true) :
    ∃ s x, Piping u s.c.log s.c.req x ∧ p s x = true := by
  split at h
  · rename_i s x he
    unfold tripRun at he
    obtain ⟨s', h1, h2⟩ := Option.bind_eq_some_iff.1 he
    obtain ⟨x', h3, h4⟩ := Option.map_eq_some_iff.1 h2
    cases h4
    simp only [Bool.and_eq_true, beq_iff_eq] at h
    obtain ⟨⟨⟨⟨k1, k2⟩, k3⟩, k4⟩, k5⟩ := h
    refine ⟨s, x, piping_plain (.start s (reach_runIf _ _ _ _ .start h1) k1 k2 rfl ?_ ?_) (by simpa using hl) h3, k5⟩
    · obtain ⟨b, hb⟩ := List.getLast?_eq_some_iff.1 k4
      exact ⟨b, [], by rw [hb], by intro e he; cases he⟩
    · rw [k3]
      intro i hi
      simp at hi
      subst hi
      simp
  · cases h

theorem demo_inquires {r : ReqView} (h : (r.method == b!"GET" && r.uri == b!"/" && r.version == b!"HTTP/1.1" && r.fragment == [] && r.content == [] && r.path == b!"/" && r.query == [] &&
    r.headers == [⟨b!"Host", b!"h"⟩]) = true) : Inquires demoEnv 2 demoTaking r := by
  simp only [Bool.and_eq_true, beq_iff_eq] at h
  obtain ⟨⟨⟨⟨⟨⟨⟨k1, k2⟩, k3⟩, k4⟩, k5⟩, k6⟩, k7⟩, k8⟩ := h
  have e : demoTaking.request = demoReq b!"GET" := by decide +kernel
  refine ⟨demoTaking_served, by rw [e]; exact demo_askable, ?_⟩
  rw [e]
  refine ⟨b!"h", .inl ⟨by decide, rfl⟩, k1, k2, k3, k4, k5, ?_, b!"0", by decide +kernel, k8⟩
  rw [k6, k7]
  exact ⟨⟨[], rfl, .nil⟩, .inl ⟨rfl, by decide⟩⟩

theorem demo_presentable {r : ReqView} (hv : r.version = b!"HTTP/1.1") : Presentable (sized b!"5") r where
  status := by decide
  final := by decide
  plain := by
    intro y hy
    have hy : y = ⟨b!"Content-Length", b!"5"⟩ ∨ y = ⟨b!"X-Y", b!"z"⟩ := by simpa [sized] using hy
    rcases hy with rfl | rfl
    · exact ⟨⟨by simp, by decide +kernel⟩, ⟨text_dec _ (by decide +kernel), by decide, by decide⟩, by decide, fun h => absurd h (by decide)⟩
    · exact demo_plain
  size := by
    intro h h3
    obtain ⟨cl, k1, k2⟩ := h3.bytes
    have hl : h.len = 5 := by rw [h3.len]; decide +kernel
    have hch : h.chunked = false := by
      cases k : h.chunked with
      | false => rfl
      | true => have := (h3.chunked.1 k).2.1; omega
    rw [hl] at k1
    have hcl : cl = b!"Content-Length: 5\r\n" := by
      have : lengthLine 5 = some b!"Content-Length: 5\r\n" := by decide +kernel
      rw [this] at k1; cases k1; rfl
    have e1 : (statusLine r (sized b!"5").status).length ≤ 64 := by unfold statusLine; rw [hv]; decide +kernel
    have e2 : (connectionHeader r h.keepAlive).length ≤ 64 := by unfold connectionHeader; split <;> (try split) <;> decide
    have e3 : (typeHeader (sized b!"5").headers h.len).length ≤ 64 := by rw [hl]; decide +kernel
    have e4 : (encodingHeader (sized b!"5").headers h.chunked).length ≤ 64 := by rw [hch]; decide +kernel
    have e5 : (otherLines (sized b!"5").headers).length ≤ 64 := by decide +kernel
    have e6 : (b!"Content-Length: 5\r\n" : Bytes).length ≤ 64 := by decide
    have e7 : (b!"\r\n" : Bytes).length ≤ 64 := by decide
    rw [k2, hcl]
    simp only [List.length_append]
    omega

/-- The hypotheses of `C94_known_partial`: upstream replies `hello` in two pieces, with its length; what the proxy sends is what the client of the example of C58 reports. -/
example : ∃ (s : Conf) (x : Piped), WholeReply (sized b!"5") s.c.log s.c.req x ∧ Presentable (sized b!"5") s.c.req ∧ Inquires demoEnv 2 demoTaking s.c.req ∧ Awaiting demoTaking ∧
    ¬ Gzipped (sized b!"5").headers ∧ x.arrived = b!"hello" ∧
    wireOf x.s.c.log = b!"HTTP/1.1 200 OK\r\nX-Y: z\r\nContent-Length: 5\r\nContent-Type: text/plain\r\n\r\nhello" := by
  obtain ⟨s, x, h1, h2⟩ := trip_demo (u := sized b!"5") (ls := relayLabels ++ ptaus 1)
    (p := fun s x => (s.c.req.method == b!"GET" && s.c.req.uri == b!"/" && s.c.req.version == b!"HTTP/1.1" && s.c.req.fragment == [] && s.c.req.content == [] && s.c.req.path == b!"/" && s.c.req.query == [] &&
      s.c.req.headers == [⟨b!"Host", b!"h"⟩]) && (x.s.c.fault == none && x.s.inEnv && !x.left && x.unread == [] && x.arrived == b!"hello" && x.outcome == none &&
      wireOf x.s.c.log == b!"HTTP/1.1 200 OK\r\nX-Y: z\r\nContent-Length: 5\r\nContent-Type: text/plain\r\n\r\nhello")) (by decide) (by decide +kernel)
  rw [Bool.and_eq_true] at h2
  obtain ⟨h2, h3⟩ := h2
  have hA := demo_inquires h2
  simp only [Bool.and_eq_true, beq_iff_eq, Bool.not_eq_true'] at h3
  obtain ⟨⟨⟨⟨⟨⟨k1, k2⟩, k3⟩, k4⟩, k5⟩, k6⟩, k7⟩ := h3
  have hlen : declaredLength (-1) (sized b!"5").headers = 5 := by decide +kernel
  refine ⟨s, x, ⟨by rw [hlen]; decide, .inr ⟨h1, k1, k2, k3, k4, by rw [k5]; decide, by rw [k5, hlen]; rfl, fun f hf => by rw [k6] at hf; cases hf⟩⟩, demo_presentable (asked_version hA).1, hA,
    demoTaking_awaiting, ?_, k5, k7⟩
  rintro ⟨y, hy, hy1, -⟩
  have hy : y = ⟨b!"Content-Length", b!"5"⟩ ∨ y = ⟨b!"X-Y", b!"z"⟩ := by simpa [sized] using hy
  rcases hy with rfl | rfl <;> exact absurd hy1 (by decide)

/-- … and of `C94_until_closed_violation`, but for the headers, which are as plain: no length, and upstream has finished. -/
example : ∃ (s : Conf) (x : Piped), RelayedToTheEnd unsized s.c.log s.c.req x ∧ Inquires demoEnv 2 demoTaking s.c.req ∧ Expecting demoTaking ∧ s.c.req.method ≠ b!"HEAD" ∧
    declaredLength (-1) unsized.headers = -1 ∧ x.arrived = b!"hello" ∧
    (demoTaking.run demoEnv 2 [.arrive (wireOf x.s.c.log), .readyRead, .error true]).log.drop demoTaking.log.length =
      [.headersCompleted 200 [⟨b!"X-Y", b!"z"⟩, ⟨b!"Connection", b!"close"⟩], .contentReadyRead b!"hello", .consumed b!"hello", .close,
       .finished .remoteHostClosed 200 [⟨b!"X-Y", b!"z"⟩, ⟨b!"Connection", b!"close"⟩] []] := by
  obtain ⟨s, x, h1, h2⟩ := trip_demo (u := unsized) (ls := relayLabels ++ [.finished false])
    (p := fun s x => (s.c.req.method == b!"GET" && s.c.req.uri == b!"/" && s.c.req.version == b!"HTTP/1.1" && s.c.req.fragment == [] && s.c.req.content == [] && s.c.req.path == b!"/" && s.c.req.query == [] &&
      s.c.req.headers == [⟨b!"Host", b!"h"⟩]) && (x.s.c.fault == none && x.outcome == some false && x.task == none && !x.left && x.unread == [] && x.arrived == b!"hello" && s.c.req.method == b!"GET" &&
      wireOf x.s.c.log == b!"HTTP/1.1 200 OK\r\nX-Y: z\r\nConnection: close\r\n\r\nhello")) (by decide) (by decide +kernel)
  rw [Bool.and_eq_true] at h2
  obtain ⟨h2, h3⟩ := h2
  have hA := demo_inquires h2
  simp only [Bool.and_eq_true, beq_iff_eq, Bool.not_eq_true'] at h3
  obtain ⟨⟨⟨⟨⟨⟨⟨k1, k2⟩, k3⟩, k4⟩, k5⟩, k6⟩, k7⟩, k8⟩ := h3
  have hlen : declaredLength (-1) unsized.headers = -1 := by decide +kernel
  refine ⟨s, x, ⟨h1, k1, k2, by decide, k3, k4, k5, fun h => by omega⟩, hA, demoTaking_expecting, by rw [k7]; decide, hlen, k6, ?_⟩
  rw [k8]
  decide +kernel

/-- A reply in chunks, as the proxy relays it: the client gets the content, and an error. -/
example : (demoTaking.run demoEnv 2 [.arrive b!"HTTP/1.1 200 OK\r\nTransfer-Encoding: chunked\r\n\r\n2\r\nhe\r\n3\r\nllo\r\n", .readyRead, .error true]).log.drop demoTaking.log.length =
    [.headersCompleted 200 [⟨b!"Transfer-Encoding", b!"chunked"⟩], .contentReadyRead b!"he", .consumed b!"he", .contentReadyRead b!"llo", .consumed b!"llo", .close,
     .finished .remoteHostClosed 200 [⟨b!"Transfer-Encoding", b!"chunked"⟩] []] := by
  decide +kernel

end Pillow.Props
