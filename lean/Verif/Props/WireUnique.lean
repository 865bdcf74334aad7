import Verif.Props.WireCalls
set_option linter.unusedSimpArgs false
set_option linter.unusedVariables false
/-!
# C99: the responses in what was written are determined
-/
namespace Pillow.Props
open Pillow Pillow.Spec

namespace WireUnique

/-- A longest run of bytes of a kind is determined. -/
theorem span_unique (P : Byte → Prop) : ∀ {a a' x x' : Bytes}, (∀ b ∈ a, P b) → (∀ b ∈ a', P b) → (∀ b, x.head? = some b → ¬ P b) → (∀ b, x'.head? = some b → ¬ P b) → a ++ x = a' ++ x' → a = a' ∧ x = x'
  | [], [], _, _, _, _, _, _, e => ⟨rfl, e⟩
  | [], b :: t, x, x', _, h2, h3, _, e => by
    have : x = b :: (t ++ x') := e
    exact absurd (h2 b (by simp)) (h3 b (by rw [this]; rfl))
  | b :: t, [], x, x', h1, _, _, h4, e => by
    have : x' = b :: (t ++ x) := e.symm
    exact absurd (h1 b (by simp)) (h4 b (by rw [this]; rfl))
  | b :: t, b' :: t', x, x', h1, h2, h3, h4, e => by
    simp only [List.cons_append, List.cons.injEq] at e
    obtain ⟨rfl, e⟩ := e
    obtain ⟨e1, e2⟩ := span_unique P (fun c hc => h1 c (by simp [hc])) (fun c hc => h2 c (by simp [hc])) h3 h4 e
    exact ⟨by rw [e1], e2⟩

theorem fold_some (base : Nat) : ∀ (l : Bytes) (o : Option Nat) (n : Nat), l.foldl (fun acc c => do
      let a ← acc
      let d ← hexVal c
      if d < base then some (base * a + d) else none) o = some n → ∀ b ∈ l, ∃ d, hexVal b = some d
  | [], _, _, _ => by simp
  | c :: l, o, n, h => by
    rw [List.foldl_cons] at h
    intro b hb
    rcases List.mem_cons.1 hb with rfl | hb
    · cases hx : hexVal b with
      | some d => exact ⟨d, rfl⟩
      | none =>
        rw [hx] at h
        have hn : (do let a ← o; let d ← (none : Option Nat); if d < base then some (base * a + d) else none) = none := by cases o <;> rfl
        rw [hn] at h
        have := fold_none (fun a c => (hexVal c).bind fun d => if d < base then some (base * a + d) else none) l
        exact absurd (h.symm.trans this) (by simp)
    · exact fold_some base l _ n h b hb

theorem number_hex {base : Nat} {s : Bytes} {n : Nat} (h : readNat base s = some n) : ∀ b ∈ s, ∃ d, hexVal b = some d := by
  unfold readNat at h
  split at h
  · cases h
  · exact fold_some base s _ n h

def Hex (b : Byte) : Prop := ∃ d, hexVal b = some d

theorem not_hex (b : Byte) (h : hexVal b = none) : ¬ Hex b := by rintro ⟨d, hd⟩; rw [h] at hd; cases hd

theorem small_hex {s : Bytes} (h : Small s) : ∀ b ∈ s, Hex b := by obtain ⟨n, h, -⟩ := h; exact number_hex h

theorem token_ne {b : Byte} (h : TokenChar b) : b ≠ 58 ∧ b ≠ 13 := by
  obtain ⟨h1, h2, h3⟩ := h
  refine ⟨fun e => h3 (by rw [e]; decide), fun e => ?_⟩
  rw [e] at h1
  exact absurd h1 (by decide)

/-- A line is determined. -/
theorem line_unique {a a' x x' : Bytes} (h : ∀ b ∈ a, b ≠ 13) (h' : ∀ b ∈ a', b ≠ 13) (e : a ++ (b!"\r\n" ++ x) = a' ++ (b!"\r\n" ++ x')) : a = a' ∧ x = x' := by
  obtain ⟨e1, e2⟩ := span_unique (· ≠ 13) h h' (x := b!"\r\n" ++ x) (x' := b!"\r\n" ++ x') (fun b k => by cases k; simp) (fun b k => by cases k; simp) e
  exact ⟨e1, List.append_cancel_left e2⟩

theorem headers_unique : ∀ {hs hs' : List RHeader} {x x' : Bytes}, (∀ h ∈ hs, h.Wf) → (∀ h ∈ hs', h.Wf) →
    (hs.map RHeader.render).flatten ++ (b!"\r\n" ++ x) = (hs'.map RHeader.render).flatten ++ (b!"\r\n" ++ x') → hs = hs' ∧ x = x'
  | [], [], _, _, _, _, e => ⟨rfl, List.append_cancel_left e⟩
  | [], h :: t, x, x', _, hw, e => by
    exfalso
    obtain ⟨hn, hc⟩ := (hw h (by simp)).name
    cases hh : h.name with
    | nil => exact hn hh
    | cons b n =>
      simp [RHeader.render, hh] at e
      exact (token_ne (hc b (by simp [hh]))).2 e.1.symm
  | h :: t, [], x, x', hw, _, e => by
    exfalso
    obtain ⟨hn, hc⟩ := (hw h (by simp)).name
    cases hh : h.name with
    | nil => exact hn hh
    | cons b n =>
      simp [RHeader.render, hh] at e
      exact (token_ne (hc b (by simp [hh]))).2 e.1
  | h :: t, h' :: t', x, x', hw, hw', e => by
    have w := hw h (by simp)
    have w' := hw' h' (by simp)
    simp only [List.map_cons, List.flatten_cons, RHeader.render, List.append_assoc] at e
    obtain ⟨e1, e⟩ := span_unique (· ≠ 58) (fun b hb => (token_ne (w.name.2 b hb)).1) (fun b hb => (token_ne (w'.name.2 b hb)).1) (fun b k => by cases k; simp) (fun b k => by cases k; simp) e
    have e := List.append_cancel_left e
    have start : ∀ {h : RHeader} (y : Bytes), h.Wf → ∀ b, (h.value ++ (b!"\r\n" ++ y)).head? = some b → ¬ (b = 32 ∨ b = 9) := fun {h} y w b k => by
      cases hv : h.value with
      | nil => rw [hv] at k; cases k; decide
      | cons c n =>
        rw [hv] at k
        have hk : c = b := by simpa using k
        subst hk
        rintro (rfl | rfl)
        · exact w.value.2.1 (by rw [hv]; rfl)
        · exact w.value.2.2 (by rw [hv]; rfl)
    obtain ⟨e2, e⟩ := span_unique (fun b => b = 32 ∨ b = 9) w.pad w'.pad (start _ w) (start _ w') e
    obtain ⟨e3, e⟩ := line_unique (fun b hb => (w.value.1 b hb).1) (fun b hb => (w'.value.1 b hb).1) e
    obtain ⟨e4, e5⟩ := headers_unique (fun k hk => hw k (by simp [hk])) (fun k hk => hw' k (by simp [hk])) e
    refine ⟨?_, e5⟩
    rw [e4]
    cases h; cases h'
    simp only at e1 e2 e3
    rw [e1, e2, e3]

/-- The head at the beginning of a text is determined. -/
theorem head_unique {H H' : RHead} (w : H.Wf) (w' : H'.Wf) {x x' : Bytes} (e : H.render ++ x = H'.render ++ x') : H = H' ∧ x = x' := by
  unfold RHead.render at e
  simp only [List.append_assoc] at e
  have e := List.append_cancel_left e
  obtain ⟨e1, e⟩ := span_unique Hex (small_hex w.major) (small_hex w'.major) (fun b k => by cases k; exact not_hex _ (by decide)) (fun b k => by cases k; exact not_hex _ (by decide)) e
  have e := List.append_cancel_left e
  obtain ⟨e2, e⟩ := span_unique Hex (small_hex w.minor) (small_hex w'.minor) (fun b k => by cases k; exact not_hex _ (by decide)) (fun b k => by cases k; exact not_hex _ (by decide)) e
  have e := List.append_cancel_left e
  have start : ∀ {H : RHead} (y : Bytes), H.Wf → ∀ b, (H.reason ++ (b!"\r\n" ++ y)).head? = some b → ¬ Hex b := fun {H} y w b k => by
    rcases w.reason with h | ⟨t, h, -⟩ <;> (rw [h] at k; cases k; exact not_hex _ (by decide))
  obtain ⟨e3, e⟩ := span_unique Hex (small_hex w.status) (small_hex w'.status) (start _ w) (start _ w') e
  have text : ∀ {H : RHead}, H.Wf → ∀ b ∈ H.reason, b ≠ 13 := fun {H} w b hb => by
    rcases w.reason with h | ⟨t, h, ht⟩
    · rw [h] at hb; cases hb
    · rw [h] at hb
      rcases List.mem_cons.1 hb with rfl | hb
      · decide
      · exact (ht b hb).1
  obtain ⟨e4, e⟩ := line_unique (text w) (text w') e
  obtain ⟨e5, e6⟩ := headers_unique w.headers w'.headers e
  refine ⟨?_, e6⟩
  cases H; cases H'
  simp only at e1 e2 e3 e4 e5
  rw [e1, e2, e3, e4, e5]

/-- The line before a chunk is determined. -/
theorem size_unique {size ext size' ext' x x' : Bytes} {n n' : Nat} (h : readNat 16 size = some n) (h' : readNat 16 size' = some n') (he : Extension ext) (he' : Extension ext')
    (e : size ++ (ext ++ (b!"\r\n" ++ x)) = size' ++ (ext' ++ (b!"\r\n" ++ x'))) : n = n' ∧ size = size' ∧ ext = ext' ∧ x = x' := by
  have start : ∀ {ext : Bytes} (y : Bytes), Extension ext → ∀ b, (ext ++ (b!"\r\n" ++ y)).head? = some b → ¬ Hex b := fun {ext} y he b k => by
    rcases he with h | ⟨c, t, h, hc, -⟩
    · rw [h] at k; cases k; exact not_hex _ (by decide)
    · rw [h] at k; cases k
      rcases hc with rfl | rfl <;> exact not_hex _ (by decide)
  have text : ∀ {ext : Bytes}, Extension ext → ∀ b ∈ ext, b ≠ 13 := fun {ext} he b hb => by
    rcases he with h | ⟨c, t, h, hc, ht⟩
    · rw [h] at hb; cases hb
    · rw [h] at hb
      rcases List.mem_cons.1 hb with rfl | hb
      · rcases hc with rfl | rfl <;> decide
      · exact (ht b hb).1
  obtain ⟨e1, e⟩ := span_unique Hex (number_hex h) (number_hex h') (start _ he) (start _ he') e
  obtain ⟨e2, e3⟩ := line_unique (text he) (text he') e
  rw [e1, h'] at h
  cases h
  exact ⟨rfl, e1, e2, e3⟩

theorem chunks_unique {wire content : Bytes} (h : ChunkedBody wire content) : ∀ {wire' content' x x' : Bytes}, ChunkedBody wire' content' → wire ++ x = wire' ++ x' → wire = wire' ∧ content = content' ∧ x = x' := by
  induction h with
  | last size ext h1 h2 h3 =>
    intro wire' content' x x' h' e
    cases h' with
    | last size' ext' k1 k2 k3 =>
      simp only [List.append_assoc] at e
      obtain ⟨-, e1, e2, e3⟩ := size_unique h1 k1 h2 k2 e
      exact ⟨by rw [e1, e2], rfl, List.append_cancel_left e3⟩
    | chunk size' ext' data' wire' content' k1 k2 k3 k4 k5 k6 =>
      simp only [List.append_assoc] at e
      obtain ⟨e1, -⟩ := size_unique h1 k1 h2 k4 e
      exact absurd (List.eq_nil_of_length_eq_zero e1.symm) k2
  | chunk size ext data wire content h1 h2 h3 h4 h5 h6 ih =>
    intro wire' content' x x' h' e
    cases h' with
    | last size' ext' k1 k2 k3 =>
      simp only [List.append_assoc] at e
      obtain ⟨e1, -⟩ := size_unique h1 k1 h4 k2 e
      exact absurd (List.eq_nil_of_length_eq_zero e1) h2
    | chunk size' ext' data' wire' content' k1 k2 k3 k4 k5 k6 =>
      simp only [List.append_assoc] at e
      obtain ⟨e1, e2, e3, e⟩ := size_unique h1 k1 h4 k4 e
      obtain ⟨e4, e⟩ := List.append_inj e e1
      obtain ⟨e5, e6, e7⟩ := ih k6 (List.append_cancel_left e)
      exact ⟨by rw [e2, e3, e4, e5], by rw [e4, e6], e7⟩

theorem followed_unique {H : RHead} {wire wire' content content' x x' : Bytes} (h : FollowedBy H wire content) (h' : FollowedBy H wire' content') (e : wire ++ x = wire' ++ x') : wire = wire' ∧ content = content' := by
  cases h with
  | nothing hn =>
    cases h' with
    | nothing => exact ⟨rfl, rfl⟩
    | chunked _ _ _ k => exact absurd hn k
    | sized _ k => exact absurd hn k
  | chunked _ _ v hn hc hl hb =>
    cases h' with
    | nothing k => exact absurd k hn
    | chunked _ _ v' _ _ _ hb' => obtain ⟨e1, e2, -⟩ := chunks_unique hb hb' e; exact ⟨e1, e2⟩
    | sized _ _ k => rw [k] at hc; cases hc
  | sized _ hn hc hl hv =>
    cases h' with
    | nothing k => exact absurd k hn
    | chunked _ _ v' _ k => rw [hc] at k; cases k
    | sized _ _ _ _ hv' =>
      obtain ⟨v, t, hvt⟩ := List.exists_cons_of_ne_nil hl
      have h1 := hv v (by rw [hvt]; simp)
      have h2 := hv' v (by rw [hvt]; simp)
      rw [h1, Option.some.injEq] at h2
      obtain ⟨e1, -⟩ := List.append_inj e h2
      exact ⟨e1, e1⟩

end WireUnique

/-- **C99**: where a response ends is determined by its bytes, whatever follows it … -/
theorem C99_one_reading (r : ReqView) (x x' y y' : Bytes) (h : FullReply r x) (h' : FullReply r x') (e : x ++ y = x' ++ y') : x = x' := by
  obtain ⟨H, wire, content, w, rfl, h1, h2⟩ := h
  obtain ⟨H', wire', content', w', rfl, h1', h2'⟩ := h'
  simp only [List.append_assoc] at e
  obtain ⟨rfl, e2⟩ := WireUnique.head_unique w w' e
  by_cases hm : r.method = b!"HEAD"
  · rw [h1 hm, h1' hm]
  · rw [(WireUnique.followed_unique (h2 hm) (h2' hm) e2).1]

/-- … and no bytes are the beginning of both a whole response and one that ends with the connection. -/
theorem C99_whole_or_last (r : ReqView) (x x' y y' : Bytes) (h : FullReply r x) (h' : LastReply r x') : x ++ y ≠ x' ++ y' := by
  intro e
  obtain ⟨H, wire, content, w, rfl, h1, h2⟩ := h
  obtain ⟨H', wire', w', rfl, hm, hn, hc, hl⟩ := h'
  simp only [List.append_assoc] at e
  obtain ⟨rfl, e2⟩ := WireUnique.head_unique w w' e
  cases h2 hm with
  | nothing k => exact hn k
  | chunked _ _ v _ k1 k2 => exact hc v k1 k2
  | sized _ _ k1 k2 => exact k2 (hl k1)

/-- **C99**: who knows the requests can take what was written apart in one way only. -/
theorem C99_determined (rs : List ReqView) : ∀ (w w' y y' : Bytes), AllAnswered rs w → AllAnswered rs w' → w ++ y = w' ++ y' → w = w' := by
  suffices h : ∀ {rs : List ReqView} {w : Bytes}, AllAnswered rs w → ∀ {rs' : List ReqView} {w' : Bytes}, AllAnswered rs' w' → rs = rs' → ∀ y y', w ++ y = w' ++ y' → w = w' from
    fun w w' y y' a b e => h a b rfl y y' e
  intro rs w h
  induction h with
  | none =>
    intro rs' w' h' e y y' _
    cases h' with
    | none => rfl
    | more => simp at e
  | more r i x ha hb hx ih =>
    intro rs' w' h' e y y' hy
    cases h' with
    | none => simp at e
    | more r' i' x' ha' hb' hx' =>
      obtain ⟨e1, e2⟩ := List.append_inj' e rfl
      cases e2
      simp only [List.append_assoc] at hy
      have hw := ih ha' e1 _ _ hy
      subst hw
      have hi : i = i' := by
        rcases hb with ⟨k, rfl⟩ | ⟨k, rfl⟩ <;> rcases hb' with ⟨k', rfl⟩ | ⟨k', rfl⟩
        · rfl
        · exact absurd k k'
        · exact absurd k' k
        · rfl
      subst hi
      rw [C99_one_reading r x x' y y' hx hx' (List.append_cancel_left (List.append_cancel_left hy))]

/-- When the connection waits for the next request, all requests are answered. -/
theorem C99_waiting_partial (s : Conf) (hr : Reach Properly s) (hv : ∀ r ∈ readys s.c.log, PlainVersion r) (he : s.inEnv = true) (hf : s.c.fault = none) (hst : s.c.st = .receivingHeaders) :
    AllAnswered (readys (epoch s.c.log)) (wireOf (epoch s.c.log)) ∧ completions (epoch s.c.log) = (readys (epoch s.c.log)).length := by
  have hp : Reach Proper s := reach_mono (fun _ _ h => h.1) hr
  obtain ⟨ho, hcl⟩ := WireCalls.heads hr hv
  have hc := reach_core hp he hf (by rw [hst]; simp) (by rw [hst]; simp)
  obtain ⟨ph, hruns, hd⟩ := hc.data
  obtain ⟨rfl, -⟩ := (settled_recvH hst).1 ((inEnv_settled he).1 hd)
  obtain ⟨w, h1, h2, h3⟩ := runs_inv hp ho hcl hruns [] (by simp)
  rw [h3]
  exact ⟨by simpa using h1, h2⟩

/-- Two pipelined requests, both answered. -/
example : ∃ s, Reach Properly s ∧ (∀ r ∈ readys s.c.log, PlainVersion r) ∧ s.inEnv = true ∧ s.c.fault = none ∧ s.c.st = .receivingHeaders ∧ (readys (epoch s.c.log)).length = 2 ∧
    AllAnswered (readys (epoch s.c.log)) (wireOf (epoch s.c.log)) := by
  have h2 : (match Conf.runIf Proper {} ([.init, .recv b!"GET /a HTTP/1.1\r\n\r\nGET /b HTTP/1.1\r\n\r\n", .call .processInput] ++ taus 3 ++
      [.call (.writeResponse 200 [⟨b!"X-Y", b!"z"⟩] b!"hello")] ++ taus 7 ++ [.ret] ++ taus 2 ++ [.ret] ++ taus 4 ++
      [.call (.writeResponse 200 [⟨b!"X-Y", b!"z"⟩] b!"hello")] ++ taus 7 ++ [.ret] ++ taus 1 ++ [.tau 1000, .ret] ++ taus 2 ++ [.ret, .ret]) with
    | some s => (readys s.c.log).all (fun r => r.version == b!"HTTP/1.1") && s.inEnv && s.c.fault == none && s.c.st == .receivingHeaders && (readys (epoch s.c.log)).length == 2
    | none => false) = true := by decide +kernel
  split at h2
  · rename_i t ht
    simp only [Bool.and_eq_true, beq_iff_eq, List.all_eq_true] at h2
    obtain ⟨⟨⟨⟨k1, k2⟩, k3⟩, k4⟩, k5⟩ := h2
    have hr : Reach Properly t := properly_runIf _ _ _ (fun l hl a e => by
      subst e
      simp [taus, List.mem_replicate] at hl
      rcases hl with rfl | rfl
      · trivial
      · exact ⟨demo_args (by decide +kernel), by decide⟩) .start ht
    have hv : ∀ r ∈ readys t.c.log, PlainVersion r :=
      fun r hr => ⟨b!"1", b!"1", by rw [k1 r hr]; rfl, ⟨1, by decide +kernel, by decide⟩, ⟨1, by decide +kernel, by decide⟩, by decide⟩
    exact ⟨t, hr, hv, k2, k3, k4, k5, (C99_waiting_partial t hr hv k2 k3 k4).1⟩
  · cases h2

end Pillow.Props
