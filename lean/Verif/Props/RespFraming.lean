import Verif.Spec.ReplyFraming
import Verif.Spec.Wire
import Verif.Props.Agree
import Verif.Props.Exchange
import Verif.Props.ReplyFraming
set_option linter.unusedSimpArgs false
set_option linter.unusedVariables false
/-!
# C98: the responses of the server end where the standard says they end
-/
namespace Pillow.Props
open Pillow Pillow.Spec

theorem shown_mem {H : RHead} {x : RHeader} (h : x ∈ H.headers) : x.shown ∈ H.shown := List.mem_map.2 ⟨x, h, rfl⟩

theorem sent_lengths_eq {H : RHead} {r : ReqView} {hs : Headers} {len : Option Bytes} {keep chunked : Bool} (e : H.shown = sentHeaders r hs len keep chunked) {v : Bytes} (hv : v ∈ H.lengths) :
    len = some v := by
  unfold RHead.lengths at hv
  obtain ⟨x, k1, rfl⟩ := List.mem_map.1 hv
  obtain ⟨k2, k3⟩ := List.mem_filter.1 k1
  have k3 := (of_decide_eq_true k3).1
  have hx := shown_mem k2
  rw [e] at hx
  have k3 : SameCI x.shown.name b!"content-length" := k3
  rcases mem_sent hx with ⟨-, h1 | h1 | ⟨h1, -⟩⟩ | ⟨l, h1, h2⟩ | h1 | h1 | h1
  · exact absurd (Or.inl k3) h1
  · exact absurd (k3.symm.trans h1) (by decide)
  · exact absurd (k3.symm.trans h1) (by decide)
  · rw [h1, show x.value = l from congrArg Header.value h2]
  all_goals rw [h1] at k3; exact absurd k3 (by decide)

/-- The coding of a response: the last one the handler asks for, but `chunked` only if it is used. -/
theorem codings_eq {H : RHead} {r : ReqView} {hs : Headers} {len : Option Bytes} {keep chunked : Bool} (e : H.shown = sentHeaders r hs len keep chunked) :
    H.codings = (encodingPart hs chunked).map Header.value := by
  have h1 : H.codings = (H.shown.filter fun x => decide (SameCI x.name b!"transfer-encoding")).map Header.value := by
    unfold RHead.codings RHead.shown
    rw [List.filter_map, List.map_map]
    rfl
  rw [h1, e]
  unfold sentHeaders
  have none_of : ∀ l : Headers, (∀ x ∈ l, ¬ SameCI x.name b!"transfer-encoding") → l.filter (fun x => decide (SameCI x.name b!"transfer-encoding")) = [] := fun l hl => by
    rw [List.filter_eq_nil_iff]
    exact fun x hx => by simpa using hl x hx
  have p1 := none_of (hs.filter fun h => !decide (Special h)) fun x hx k => by
    have := (List.mem_filter.1 hx).2
    have : ¬ Special x := by simpa using this
    exact this (Or.inr (Or.inr (Or.inr k)))
  have p2 := none_of (lengthPart len) fun x hx k => by
    cases len with
    | none => cases hx
    | some l => simp [lengthPart] at hx; rw [hx] at k; exact absurd (show SameCI b!"Content-Length" b!"transfer-encoding" from k) (by decide)
  have p3 := none_of (typePart hs len) fun x hx k => by
    unfold typePart at hx
    cases ht : lastHeader hs b!"content-type" with
    | some t =>
      rw [ht] at hx
      simp only [List.mem_singleton] at hx
      rw [hx] at k
      exact absurd (k.symm.trans (lastHeader_mem ht).2) (by decide)
    | none =>
      rw [ht] at hx
      dsimp only at hx
      split at hx
      · simp only [List.mem_singleton] at hx; rw [hx] at k; exact absurd k (by decide)
      · cases hx
  have p4 := none_of (connectionPart r keep) fun x hx k => by
    unfold connectionPart at hx
    split at hx
    · split at hx
      · cases hx
      · simp only [List.mem_singleton] at hx; rw [hx] at k; exact absurd k (by decide)
    · simp only [List.mem_singleton] at hx; rw [hx] at k; exact absurd k (by decide)
  have p5 : (encodingPart hs chunked).filter (fun x => decide (SameCI x.name b!"transfer-encoding")) = encodingPart hs chunked := by
    rw [List.filter_eq_self]
    intro x hx
    unfold encodingPart at hx
    cases ht : lastHeader hs b!"transfer-encoding" with
    | none => rw [ht] at hx; cases hx
    | some t =>
      rw [ht] at hx
      dsimp only at hx
      split at hx
      · cases hx
      · simp only [List.mem_singleton] at hx; rw [hx]; simpa using (lastHeader_mem ht).2
  rw [List.filter_append, List.filter_append, List.filter_append, List.filter_append, p1, p2, p3, p4, p5]
  rfl

theorem sent_codings {H : RHead} {r : ReqView} {hs : Headers} {len : Option Bytes} {keep chunked : Bool} (e : H.shown = sentHeaders r hs len keep chunked) (ho : OnlyChunks hs) {v : Bytes} (hv : v ∈ H.codings) :
    chunked = true ∧ SameCI v b!"chunked" := by
  rw [codings_eq e] at hv
  unfold encodingPart at hv
  cases ht : lastHeader hs b!"transfer-encoding" with
  | none => rw [ht] at hv; cases hv
  | some t =>
    rw [ht] at hv
    dsimp only at hv
    have hs := ho t ht
    split at hv
    · cases hv
    · rename_i k
      simp only [List.map_cons, List.map_nil, List.mem_singleton] at hv
      rw [hv]
      cases chunked with
      | true => exact ⟨rfl, hs⟩
      | false => exact absurd ⟨hs, rfl⟩ k

/-- **C98**: what the server writes after the head of a completed response is what the standard takes to follow it, and means the content the handler gave; or the response ends with the connection, which is
not kept. (The handler asks for no coding but `chunked`, and gives no content to a 204, 304 or 1xx.) -/
theorem C98_follows_partial (s : Conf) (hr : Reach Proper s) (a b d : List Ev) (h : RespHead) (r : ReqView)
    (e : s.c.log = a ++ .head h :: b ++ .completed :: d) (hb : NoHead b) (hreq : (readys a).getLast? = some r)
    (hm : r.method ≠ b!"HEAD") (hl : -1 ≤ h.len ∧ h.len < 2147483648) (hcl : ∀ bs, .chunk bs ∈ b → bs.length < 2147483648) (hst : h.status ∈ rfcCodes) {maj min : Bytes} (hv : VersionOf r maj min)
    (hp : ∀ x ∈ h.headers, PlainHeader x) (ho : OnlyChunks h.headers) (hsz : h.bytes.length ≤ 80 * 1024 - 2) (hno : NoContent h.status.toNat → wireOf b = []) :
    ∃ H : RHead, H.Wf ∧ H.render = h.bytes ∧ num H.status = h.status.toNat ∧
      (FollowedBy H (wireOf b) (contentOf b) ∨ UntilClosed H ∧ wireOf b = contentOf b ∧ h.keepAlive = false) := by
  have e0 := e
  rw [List.append_assoc, List.cons_append] at e0
  obtain ⟨H, g1, g2, g3, g4, g5, g6⟩ := head_grammar s hr a _ h e0 r hreq hst hl hv hp hsz
  refine ⟨H, g1, g2, g3, ?_⟩
  obtain ⟨-, ph, hruns⟩ := reach_log hr
  obtain ⟨r', h1, ⟨lenIn, st, hs, hl', hbh⟩, h3, h4⟩ := head_split hruns e0
  obtain ⟨k1, k2, m, k3, k4⟩ := response_completed h4 hb
  obtain ⟨w, -⟩ := writing_path r' h b k3 k1
  by_cases hn : NoContent h.status.toNat
  · left
    have hw := hno hn
    have hc : contentOf b = [] := by
      refine contentOf_nil fun x hx => ?_
      have hx' : x.wire = [] := by
        unfold wireOf at hw
        exact List.flatten_eq_nil_iff.1 hw _ (List.mem_map.2 ⟨x, hx, rfl⟩)
      rcases w.only x hx with ⟨bs, rfl⟩ | ⟨bs, rfl, k⟩ | ⟨bs, rfl, k⟩ | ⟨rfl, k⟩
      · rfl
      · exact hx'
      · exact absurd hx' (by simp [Ev.wire])
      · exact absurd hx' (by simp [Ev.wire])
    rw [hw, hc]
    exact .nothing (by rw [g3]; exact hn)
  · rw [← g3] at hn
    by_cases hlen : h.len = -1
    · cases hch : h.chunked with
      | true =>
        left
        obtain ⟨M, q1, q2, q3, q4, q5⟩ := chunked_response s hr a b d h r e hb hreq hm hch hcl hst hv hp hsz
        have hbody : ChunkedBody (wireOf b) (contentOf b) := by
          have hdec := C19_decodes s hr a b d h r e hb hreq hm hch
          refine chunked_body b _ (fun x hx => ?_) hdec
          rcases w.only x hx with ⟨bs, rfl⟩ | ⟨bs, rfl, k⟩ | ⟨bs, rfl, k⟩ | ⟨rfl, k⟩
          · exact Or.inl ⟨bs, rfl⟩
          · rw [hch] at k; cases k
          · exact Or.inr (Or.inl ⟨bs, rfl, hcl bs hx⟩)
          · exact Or.inr (Or.inr rfl)
        obtain ⟨v, hv1, -⟩ := chunked_codings.1 (g5.2 hch)
        cases hlast : H.codings.getLast? with
        | none => rw [List.getLast?_eq_none_iff.1 hlast] at hv1; cases hv1
        | some u =>
          have := (sent_codings g4 ho (List.mem_of_getLast? hlast)).2
          exact .chunked _ _ u hn hlast (.inl ⟨0, by simpa using this⟩) hbody
      | false =>
        right
        have hcod : H.codings = [] := by
          cases hc : H.codings with
          | nil => rfl
          | cons v t =>
            have := (sent_codings g4 ho (v := v) (by rw [hc]; simp)).1
            rw [hch] at this; cases this
        have hlens : H.lengths = [] := by
          cases hc : H.lengths with
          | nil => rfl
          | cons v t =>
            have := sent_lengths_eq g4 (v := v) (by rw [hc]; simp)
            rw [if_pos hlen] at this; cases this
        refine ⟨⟨hn, ⟨fun v k => (by rw [hcod] at k; cases k), fun _ => hlens⟩⟩, ?_, ?_⟩
        · have := plain_wire (r := r') (h := h) b w.only hch
          simpa [wireOf, Ev.wire] using this
        · obtain ⟨_, -, sp⟩ := head_in_log s hr a _ h e0 r hreq
          cases hk : h.keepAlive with
          | false => rfl
          | true =>
            rcases (sp.keepAlive.1 hk).2.1 with h | h
            · omega
            · rw [hch] at h; cases h
    · left
      have hlen0 : 0 ≤ h.len := by omega
      have hexact := C18_complete_exact s hr a b d h r e hb hreq hm hlen0
      have hch : h.chunked = false := by
        cases hc : h.chunked with
        | false => rfl
        | true => have := (buildHead_facts hbh).2 hc; omega
      have hwire : wireOf b = contentOf b := by
        have := plain_wire (r := r') (h := h) b w.only hch
        simpa [wireOf, Ev.wire] using this
      rw [hwire]
      have hcod : H.codings = [] := by
        cases hc : H.codings with
        | nil => rfl
        | cons v t =>
          have := (sent_codings g4 ho (v := v) (by rw [hc]; simp)).1
          rw [hch] at this; cases this
      rw [if_neg hlen] at g4 g6
      refine .sized _ hn hcod (fun k => ?_) fun v hv => ?_
      · unfold RHead.announced at g6
        rw [k] at g6
        cases g6
      · have := sent_lengths_eq g4 hv
        simp only [Option.map_some, Option.some.injEq] at this
        rw [← this, readNat_digits 10 (by decide) (by decide)]
        congr 1
        rw [← hexact]; rfl

/-- **C98**, HEAD: nothing follows the head. -/
theorem C98_head (s : Conf) (hr : Reach Proper s) (a b d : List Ev) (h : RespHead) (r : ReqView) (e : s.c.log = a ++ .head h :: b ++ .completed :: d) (hb : NoHead b)
    (hreq : (readys a).getLast? = some r) (hm : r.method = b!"HEAD") : wireOf (.head h :: b) = h.bytes := (head_silent hr e hb hreq hm).2

/-- **C98 does not hold** for a 204, 304 or 1xx with content: the standard takes the response to end with its head, so that what the server writes after it belongs to no response, or to the next one. -/
theorem C98_violation (s : Conf) (hr : Reach Proper s) (a b d : List Ev) (h : RespHead) (r : ReqView)
    (e : s.c.log = a ++ .head h :: b ++ .completed :: d) (hreq : (readys a).getLast? = some r)
    (hl : -1 ≤ h.len ∧ h.len < 2147483648) (hst : h.status ∈ rfcCodes) {maj min : Bytes} (hv : VersionOf r maj min)
    (hp : ∀ x ∈ h.headers, PlainHeader x) (hsz : h.bytes.length ≤ 80 * 1024 - 2) (hno : NoContent h.status.toNat) (hw : wireOf b ≠ []) :
    ∃ H : RHead, H.Wf ∧ H.render = h.bytes ∧ FollowedBy H [] [] ∧ ¬ UntilClosed H ∧ ∀ content, ¬ FollowedBy H (wireOf b) content := by
  have e0 := e
  rw [List.append_assoc, List.cons_append] at e0
  obtain ⟨H, g1, g2, g3, g4, g5, g6⟩ := head_grammar s hr a _ h e0 r hreq hst hl hv hp hsz
  rw [← g3] at hno
  refine ⟨H, g1, g2, .nothing hno, fun k => k.1 hno, fun ct hf => ?_⟩
  generalize wireOf b = wb at hw hf
  cases hf with
  | nothing => exact hw rfl
  | chunked _ _ _ k => exact k hno
  | sized _ k => exact k hno

/-- **C98 does not hold** for a handler that asks for another coding, and gives the length: the standard takes the response to end with the connection, which the server may keep. -/
theorem C98_codings_violation (s : Conf) (hr : Reach Proper s) (a b d : List Ev) (h : RespHead) (r : ReqView)
    (e : s.c.log = a ++ .head h :: b ++ .completed :: d) (hreq : (readys a).getLast? = some r)
    (hl : -1 ≤ h.len ∧ h.len < 2147483648) (hst : h.status ∈ rfcCodes) {maj min : Bytes} (hv : VersionOf r maj min)
    (hp : ∀ x ∈ h.headers, PlainHeader x) (hsz : h.bytes.length ≤ 80 * 1024 - 2) (hno : ¬ NoContent h.status.toNat)
    {t : Header} (ht : lastHeader h.headers b!"transfer-encoding" = some t) (hc : ¬ LastChunked t.value) :
    ∃ H : RHead, H.Wf ∧ H.render = h.bytes ∧ UntilClosed H ∧ ∀ wire content, ¬ FollowedBy H wire content := by
  have e0 := e
  rw [List.append_assoc, List.cons_append] at e0
  obtain ⟨H, g1, g2, g3, g4, g5, g6⟩ := head_grammar s hr a _ h e0 r hreq hst hl hv hp hsz
  rw [← g3] at hno
  have hs : ¬ SameCI t.value b!"chunked" := fun k => hc (.inl ⟨0, by simpa using k⟩)
  have hcod : H.codings = [t.value] := by
    rw [codings_eq g4]
    unfold encodingPart
    rw [ht]
    dsimp only
    rw [if_neg fun k => hs k.1]
    rfl
  refine ⟨H, g1, g2, ⟨hno, ⟨fun v k => ?_, fun k => ?_⟩⟩, fun wire ct hf => ?_⟩
  · rw [hcod] at k; cases k; exact hc
  · rw [hcod] at k; cases k
  · cases hf with
    | nothing k => exact hno k
    | chunked _ _ v _ k2 k3 _ => rw [hcod] at k2; cases k2; exact hc k3
    | sized _ _ k _ _ => rw [hcod] at k; cases k

/-! ### The hypotheses are met -/

/-- A handler passes on compressed content: the connection is kept, and the client told to read until it is closed. -/
theorem C98_demo_codings : ¬ LastChunked b!"gzip" ∧ ∃ (s : Conf) (a d : List Ev) (h : RespHead) (r : ReqView), Reach Proper s ∧ s.c.log = a ++ .head h :: [.body b!"zz"] ++ .completed :: d ∧
    (readys a).getLast? = some r ∧ r.method = b!"GET" ∧ h.len = 2 ∧ h.status = 200 ∧ VersionOf r b!"1" b!"1" ∧ (∀ x ∈ h.headers, PlainHeader x) ∧ h.bytes.length ≤ 80 * 1024 - 2 ∧ h.keepAlive = true ∧
    lastHeader h.headers b!"transfer-encoding" = some ⟨b!"Transfer-Encoding", b!"gzip"⟩ := by
  refine ⟨?_, ?_⟩
  · rintro (⟨k, hk⟩ | ⟨x, y, u, h1, -, -⟩)
    · have := congrArg List.length hk
      simp at this
    · have : (44 : Byte) ∈ b!"gzip" := by rw [h1]; simp
      exact absurd this (by decide)
  obtain ⟨t, h1, h2⟩ := exists_of_endsIn (allowed := Proper) (ls := [.init, .recv b!"GET /a HTTP/1.1\r\n\r\n", .call .processInput] ++ taus 3 ++
      [.call (.writeResponse 200 [⟨b!"Transfer-Encoding", b!"gzip"⟩] b!"zz")] ++ taus 7)
    (p := fun s => match s.c.log with
      | [_, _, .ready r, .head h, .body b, .completed] => r.method == b!"GET" && r.version == b!"HTTP/1.1" && h.len == 2 && h.status == 200 && h.headers == [⟨b!"Transfer-Encoding", b!"gzip"⟩] && h.keepAlive &&
          b == b!"zz" && decide (h.bytes.length ≤ 80 * 1024 - 2)
      | _ => false) (by decide +kernel)
  split at h2
  · rename_i x y r h b e
    simp only [Bool.and_eq_true, beq_iff_eq, decide_eq_true_eq] at h2
    obtain ⟨⟨⟨⟨⟨⟨⟨k1, k2⟩, k3⟩, k4⟩, k5⟩, k6⟩, k7⟩, k8⟩ := h2
    refine ⟨t, [x, y, .ready r], [], h, r, h1, by rw [e, k7]; rfl, ?_, k1, k3, k4,
      ⟨by rw [k2]; rfl, ⟨1, by decide +kernel, by decide⟩, ⟨1, by decide +kernel, by decide⟩⟩, ?_, k8, k6, by rw [k5]; decide +kernel⟩
    · cases x <;> cases y <;> rfl
    · rw [k5]; intro x hx; simp only [List.mem_singleton] at hx; subst hx
      refine ⟨⟨by simp, by decide +kernel⟩, ⟨text_dec _ (by decide +kernel), by decide, by decide⟩, by decide, fun _ h => ?_⟩
      obtain ⟨k, hk⟩ := h
      have := congrArg List.length hk
      simp at this
  · cases h2

/-- A response that hides in the content of a 204. -/
def hidden : Bytes := b!"HTTP/1.1 200 OK\r\nContent-Length: 2\r\n\r\nhi"

/-- A handler answers with 204 and a text: the connection is kept, and whoever follows the standard reads a second response. -/
theorem C98_demo : (∃ (s : Conf) (a d : List Ev) (h : RespHead) (r : ReqView), Reach Proper s ∧ s.c.log = a ++ .head h :: [.body hidden] ++ .completed :: d ∧ (readys a).getLast? = some r ∧ r.method = b!"GET" ∧
      h.len = 40 ∧ h.status = 204 ∧ h.status ∈ rfcCodes ∧ NoContent h.status.toNat ∧ VersionOf r b!"1" b!"1" ∧ (∀ x ∈ h.headers, PlainHeader x) ∧ h.bytes.length ≤ 80 * 1024 - 2 ∧ h.keepAlive = true ∧
      h.bytes = b!"HTTP/1.1 204 No Content\r\nContent-Length: 40\r\nContent-Type: text/plain\r\n\r\n") ∧
    ∃ H : RHead, H.Wf ∧ hidden = H.render ++ b!"hi" ∧ FollowedBy H b!"hi" b!"hi" := by
  refine ⟨?_, { major := b!"1", minor := b!"1", status := b!"200", reason := b!" OK", headers := [⟨b!"Content-Length", b!" ", b!"2"⟩] },
    rhead_wf (a := 1) (b := 1) (c := 200) (by decide +kernel) (by decide +kernel) (by decide +kernel) ⟨b!"OK", by decide +kernel, by decide +kernel⟩ (by decide +kernel) (by decide +kernel) (by decide +kernel)
      (by decide +kernel), by decide +kernel, .sized _ (by decide +kernel) (by decide +kernel) (by decide +kernel) (by decide +kernel)⟩
  obtain ⟨t, h1, h2⟩ := exists_of_endsIn (allowed := Proper) (ls := [.init, .recv b!"GET /a HTTP/1.1\r\n\r\n", .call .processInput] ++ taus 3 ++ [.call (.writeResponse 204 [] hidden)] ++ taus 7)
    (p := fun s => match s.c.log with
      | [_, _, .ready r, .head h, .body b, .completed] => r.method == b!"GET" && r.version == b!"HTTP/1.1" && h.len == 40 && h.status == 204 && h.headers == [] && h.keepAlive &&
          b == hidden && h.bytes == b!"HTTP/1.1 204 No Content\r\nContent-Length: 40\r\nContent-Type: text/plain\r\n\r\n"
      | _ => false) (by decide +kernel)
  split at h2
  · rename_i x y r h b e
    simp only [Bool.and_eq_true, beq_iff_eq] at h2
    obtain ⟨⟨⟨⟨⟨⟨⟨k1, k2⟩, k3⟩, k4⟩, k5⟩, k6⟩, k7⟩, k8⟩ := h2
    refine ⟨t, [x, y, .ready r], [], h, r, h1, by rw [e, k7]; rfl, ?_, k1, k3, k4, by rw [k4]; decide, by rw [k4]; decide,
      ⟨by rw [k2]; rfl, ⟨1, by decide +kernel, by decide⟩, ⟨1, by decide +kernel, by decide⟩⟩, by rw [k5]; simp, by rw [k8]; decide +kernel, k6, k8⟩
    cases x <;> cases y <;> rfl
  · cases h2

/-- A completed response of known length. -/
example : ∃ (s : Conf) (a b d : List Ev) (h : RespHead) (r : ReqView), Reach Proper s ∧ s.c.log = a ++ .head h :: b ++ .completed :: d ∧ NoHead b ∧
    (readys a).getLast? = some r ∧ r.method ≠ b!"HEAD" ∧ (-1 ≤ h.len ∧ h.len < 2147483648) ∧ (∀ bs, .chunk bs ∈ b → bs.length < 2147483648) ∧ h.status ∈ rfcCodes ∧ VersionOf r b!"1" b!"1" ∧
    (∀ x ∈ h.headers, PlainHeader x) ∧ OnlyChunks h.headers ∧ h.bytes.length ≤ 80 * 1024 - 2 ∧ (NoContent h.status.toNat → wireOf b = []) ∧ contentOf b = b!"hello" := by
  obtain ⟨t, h1, h2⟩ := exists_of_endsIn (allowed := Proper) (ls := toCompletion b!"HTTP/1.1")
    (p := fun s => match s.c.log with
      | [_, _, .ready r, .head h, .body b, .completed] => r.method == b!"GET" && r.version == b!"HTTP/1.1" && h.len == 5 && h.status == 200 && h.headers == [⟨b!"X-Y", b!"z"⟩] &&
          b == b!"hello" && h.bytes == b!"HTTP/1.1 200 OK\r\nX-Y: z\r\nContent-Length: 5\r\nContent-Type: text/plain\r\n\r\n"
      | _ => false) (by decide +kernel)
  split at h2
  · rename_i x y r h b e
    simp only [Bool.and_eq_true, beq_iff_eq] at h2
    obtain ⟨⟨⟨⟨⟨⟨k1, k2⟩, k3⟩, k4⟩, k5⟩, k6⟩, k7⟩ := h2
    refine ⟨t, [x, y, .ready r], [.body b], [], h, r, h1, by rw [e]; rfl, ?_, ?_, by rw [k1]; decide, by rw [k3]; decide, by simp, by rw [k4]; decide,
      ⟨by rw [k2]; rfl, ⟨1, by decide +kernel, by decide⟩, ⟨1, by decide +kernel, by decide⟩⟩, ?_, ?_, by rw [k7]; decide +kernel, ?_, ?_⟩
    · intro e he; simp at he; subst he; simp
    · cases x <;> cases y <;> rfl
    · rw [k5]; intro x hx; simp only [List.mem_singleton] at hx; subst hx; exact demo_plain
    · rw [k5]; intro t ht; have hn : lastHeader [⟨b!"X-Y", b!"z"⟩] b!"transfer-encoding" = none := by decide +kernel
      rw [hn] at ht; cases ht
    · rw [k4]; intro hn; exact absurd hn (by decide)
    · rw [k6]; rfl
  · cases h2

end Pillow.Props
