import Verif.Props.Script
set_option linter.unusedSimpArgs false
set_option linter.unusedVariables false
/-!
# C72: what a script is shown of the request
-/
namespace Pillow.Props
open Pillow Pillow.Spec

theorem qtHex_of_hex : ∀ h : Byte, ∀ hv, hexVal h = some hv → (qtHex h).toNat = hv ∧ hv < 16 := by
  apply byte_forall
  decide +kernel

theorem qtPair (h l b : Byte) (hv lv : Nat) (h1 : hexVal h = some hv) (h2 : hexVal l = some lv) (hb : b.toNat = 16 * hv + lv) : (qtHex h <<< 4) ||| qtHex l = b := by
  obtain ⟨a1, a2⟩ := qtHex_of_hex h hv h1
  obtain ⟨b1, b2⟩ := qtHex_of_hex l lv h2
  have key : ∀ x y : Fin 16, ((UInt8.ofNat x.val <<< 4) ||| UInt8.ofNat y.val).toNat = 16 * x.val + y.val := by decide +kernel
  have e1 : qtHex h = UInt8.ofNat hv := by apply UInt8.toNat_inj.1; rw [a1, UInt8.toNat_ofNat']; omega
  have e2 : qtHex l = UInt8.ofNat lv := by apply UInt8.toNat_inj.1; rw [b1, UInt8.toNat_ofNat']; omega
  apply UInt8.toNat_inj.1
  rw [e1, e2, hb]
  exact key ⟨hv, a2⟩ ⟨lv, b2⟩

theorem qtPercentDecode_encodes {enc raw : Bytes} (h : PctEncodes enc raw) : qtPercentDecode enc = raw := by
  induction h with
  | nil => rfl
  | plain b enc raw hb _ ih => rw [qtPercentDecode.eq_def]; simp [hb, ih]
  | escaped h l b hv lv enc raw h1 h2 hb _ ih => rw [qtPercentDecode.eq_def]; simp [ih, qtPair h l b hv lv h1 h2 hb]

theorem means_decode (s : Bytes) : Means s (qtPercentDecode s) := fun _ h => qtPercentDecode_encodes h

theorem property_set (o : ScriptObject) (n v m : Bytes) : (o.setProperty n v).property m = if m = n then some v else o.property m := by
  induction o with
  | nil =>
    by_cases e : n = m
    · subst e; simp [ScriptObject.setProperty, ScriptObject.property]
    · have : ¬ m = n := fun k => e k.symm
      simp [ScriptObject.setProperty, ScriptObject.property, e, this]
  | cons p o ih =>
    obtain ⟨k, w⟩ := p
    unfold ScriptObject.property at ih ⊢
    rw [ScriptObject.setProperty]
    by_cases e : k = n
    · subst e
      rw [if_pos rfl]
      by_cases f : k = m
      · subst f; simp
      · have : ¬ m = k := fun q => f q.symm
        simp [f, this]
    · rw [if_neg e]
      by_cases f : k = m
      · subst f; simp [e]
      · simp only [List.find?_cons, f, decide_false, cond_false]
        exact ih

theorem lastNamed_snoc {ps : List (Bytes × Bytes)} {m w n v : Bytes} (h : LastNamed (ps ++ [(m, w)]) n v) : (m = n ∧ w = v) ∨ (m ≠ n ∧ LastNamed ps n v) := by
  obtain ⟨a, b, e, hb⟩ := h
  by_cases hn : b = []
  · subst hn
    obtain ⟨-, e2⟩ := List.append_inj' e rfl
    simp only [List.cons.injEq, Prod.mk.injEq] at e2
    exact .inl e2.1
  · obtain ⟨b', x, rfl⟩ : ∃ b' x, b = b' ++ [x] := ⟨b.dropLast, b.getLast hn, (List.dropLast_concat_getLast hn).symm⟩
    rw [show a ++ (n, v) :: (b' ++ [x]) = (a ++ (n, v) :: b') ++ [x] by simp] at e
    obtain ⟨e1, e2⟩ := List.append_inj' e rfl
    simp only [List.cons.injEq, and_true] at e2
    subst e2
    exact .inr ⟨hb (m, w) (by simp), a, b', e1, fun p hp => hb p (by simp [hp])⟩

/-- Setting one property after the other leaves the last of each name. -/
theorem fold_hasLast (value : Bytes → Bytes → Prop) (f : Bytes → Bytes) (hf : ∀ v, value v (f v)) (ps : List (Bytes × Bytes)) :
    HasLast value ps (ps.foldl (fun o p => ScriptObject.setProperty o p.1 (f p.2)) []) := by
  induction ps using list_snoc_ind with
  | h0 =>
    refine ⟨?_, fun _ _ => rfl⟩
    rintro n v ⟨a, b, e, -⟩
    simp at e
  | h1 ps p ih =>
    obtain ⟨m, w⟩ := p
    rw [List.foldl_append]
    simp only [List.foldl_cons, List.foldl_nil]
    refine ⟨fun n v hl => ?_, fun n hn => ?_⟩
    · rw [property_set]
      rcases lastNamed_snoc hl with ⟨rfl, rfl⟩ | ⟨hne, hl⟩
      · exact ⟨f w, by simp, hf w⟩
      · rw [if_neg (fun e => hne e.symm)]
        exact ih.1 n v hl
    · rw [property_set, if_neg (fun e => hn (m, w) (by simp) e.symm)]
      exact ih.2 n (fun p hp => hn p (by simp [hp]))

theorem headersToScript_fold (hs : List HeaderLine) : headersToScript (pairs hs) = (named hs).foldl (fun o p => ScriptObject.setProperty o p.1 (qtPercentDecode p.2)) [] := by
  unfold headersToScript pairs named
  rw [List.foldl_map, List.foldl_map]

theorem shown_uri (hd : ReqHead) (content : Bytes) (h : ∀ p, hd.target ≠ .origin p (some [])) : (hd.shown content).uri = hd.target.uri := by
  unfold ReqHead.shown
  split
  · rename_i p e; exact absurd e (h p)
  · rfl

/-- C72: whenever a request is with the handler, the object the script function is called with shows the last request among the bytes of the client, with everything percent-decoded. -/
theorem C72_shown (s : Conf) (hr : Reach Proper s) (r : ReqView) (hw : WithHandler s.c.log r) (items : Bytes → List (Bytes × Bytes)) :
    ∃ hd content, LastSent s.c.log hd content ∧ ShowsRequest items hd content (scriptRequest items r) := by
  obtain ⟨hd, content, hl, hv⟩ := last_sent hr hw
  obtain ⟨v1, v3, v4, v5, v6, v7⟩ := shown_parts hd content
  have hu := shown_uri hd content
  rw [← hv] at v1 v3 v4 v5 v6 v7 hu
  refine ⟨hd, content, hl, ?_⟩
  unfold scriptRequest
  constructor
  · rw [v1]; exact means_decode _
  · intro h; dsimp only; rw [hu h]; exact means_decode _
  · rw [v6]; exact means_decode _
  · rw [v4]; exact means_decode _
  · rw [v5]; exact means_decode _
  · rw [v3]; exact means_decode _
  · dsimp only; rw [v7, headersToScript_fold]; exact fold_hasLast _ _ means_decode _
  · intro h; dsimp only; rw [hu h]; exact fold_hasLast (fun v w => w = v) (fun v => v) (fun _ => rfl) _

theorem means_self {s v : Bytes} (h : Means s v) (hp : 37 ∉ s) : v = s := by
  refine h s ?_
  clear h
  induction s with
  | nil => exact .nil
  | cons a s ih =>
    simp only [List.mem_cons, not_or] at hp
    exact .plain a s s (fun e => hp.1 e.symm) (ih hp.2)

theorem lastNamed_distinct {hs : List HeaderLine} (hd : DistinctNames hs) {l : HeaderLine} (hl : l ∈ hs) : LastNamed (named hs) l.name l.value := by
  induction hs with
  | nil => cases hl
  | cons x hs ih =>
    obtain ⟨h1, h2⟩ := List.pairwise_cons.1 hd
    rcases List.mem_cons.1 hl with rfl | hl
    · refine ⟨[], named hs, rfl, ?_⟩
      intro p hp
      obtain ⟨y, hy, rfl⟩ := List.mem_map.1 hp
      intro e
      exact h1 y hy (by unfold SameCI; rw [show y.name = l.name from e])
    · obtain ⟨a, b, e, hb⟩ := ih h2 hl
      exact ⟨(x.name, x.value) :: a, b, by simp [named] at e ⊢; exact e, hb⟩

/-- C72: the content and the headers are shown as they were sent if there is no `%` in them. Partial: with a `%` they are altered (`C72_content_violation`), and of headers that are
repeated only the last one is shown (`C72_repeated_violation`). -/
theorem C72_as_sent_partial (s : Conf) (hr : Reach Proper s) (r : ReqView) (hw : WithHandler s.c.log r) (items : Bytes → List (Bytes × Bytes)) :
    ∃ hd content, LastSent s.c.log hd content ∧ (37 ∉ content → (scriptRequest items r).content = content) ∧
      (DistinctNames hd.headers → ∀ l ∈ hd.headers, 37 ∉ l.value → (scriptRequest items r).headers.property l.name = some l.value) := by
  obtain ⟨hd, content, hl, hs⟩ := C72_shown s hr r hw items
  refine ⟨hd, content, hl, means_self hs.content, fun hdist l hml hp => ?_⟩
  obtain ⟨w, hw, hm⟩ := hs.headers.1 _ _ (lastNamed_distinct hdist hml)
  rw [hw, means_self hm hp]

/-- C72: the object of headers a script passes to a function of the connection becomes the headers it is passed: one for each property, in the order in which they were set first, each with the
value set last. -/
theorem C72_headers_given (ps : List (Bytes × Bytes)) : let hs := headersFromScript (ps.foldl (fun o p => ScriptObject.setProperty o p.1 p.2) [])
    (∀ n v, LastNamed ps n v ↔ ⟨n, v⟩ ∈ hs) ∧ (hs.map (·.name)).Nodup ∧ ((ps.map (·.1)).Nodup → hs = ps.map fun p => ⟨p.1, p.2⟩) := by
  have set_names : ∀ (o : ScriptObject) (n v : Bytes), (o.setProperty n v).map (·.1) = if n ∈ o.map (·.1) then o.map (·.1) else o.map (·.1) ++ [n] := by
    intro o n v
    induction o with
    | nil => simp [ScriptObject.setProperty]
    | cons p o ih =>
      obtain ⟨k, w⟩ := p
      rw [ScriptObject.setProperty]
      by_cases e : k = n
      · subst e; simp
      · rw [if_neg e]
        have e' : ¬ n = k := fun q => e q.symm
        simp only [List.map_cons, ih, List.mem_cons, e', false_or]
        split <;> simp
  have hnd : ∀ ps : List (Bytes × Bytes), ((ps.foldl (fun o p => ScriptObject.setProperty o p.1 p.2) ([] : ScriptObject)).map (·.1)).Nodup ∧
      ∀ n, n ∈ (ps.foldl (fun o p => ScriptObject.setProperty o p.1 p.2) ([] : ScriptObject)).map (·.1) ↔ n ∈ ps.map (·.1) := by
    intro ps
    induction ps using list_snoc_ind with
    | h0 => simp
    | h1 ps p ih =>
      rw [List.foldl_append]
      simp only [List.foldl_cons, List.foldl_nil, set_names]
      split
      · rename_i hm
        refine ⟨ih.1, fun n => ?_⟩
        rw [ih.2 n, List.map_append, List.mem_append]
        constructor
        · exact .inl
        · rintro (h | h)
          · exact h
          · simp at h; subst h; exact (ih.2 _).1 hm
      · rename_i hm
        refine ⟨List.nodup_append.2 ⟨ih.1, by simp, ?_⟩, fun n => ?_⟩
        · intro a ha b hb e
          simp at hb
          subst hb e
          exact hm ha
        · rw [List.map_append, List.mem_append, List.mem_append, ih.2 n]; simp
  have mem_prop : ∀ (o : ScriptObject), (o.map (·.1)).Nodup → ∀ n v, o.property n = some v ↔ (n, v) ∈ o := by
    intro o
    induction o with
    | nil => simp [ScriptObject.property]
    | cons p o ih =>
      obtain ⟨k, w⟩ := p
      intro h n v
      simp only [List.map_cons, List.nodup_cons] at h
      have ih := ih h.2 n v
      unfold ScriptObject.property at ih ⊢
      by_cases e : k = n
      · subst e
        simp only [List.find?_cons, decide_true, Option.map_some, Option.some.injEq, List.mem_cons, Prod.mk.injEq, true_and]
        constructor
        · intro q; exact .inl q.symm
        · rintro (q | q)
          · exact q.symm
          · exact absurd (List.mem_map.2 ⟨_, q, rfl⟩) h.1
      · have e' : ¬ n = k := fun q => e q.symm
        simp only [List.find?_cons, e, decide_false, cond_false, List.mem_cons, Prod.mk.injEq, e', false_and, false_or]
        exact ih
  have hl := fold_hasLast (fun v w => w = v) (fun v => v) (fun _ => rfl) ps
  have ex_last : ∀ (ps : List (Bytes × Bytes)) n, n ∈ ps.map (·.1) → ∃ v, LastNamed ps n v := by
    intro ps
    induction ps using list_snoc_ind with
    | h0 => simp
    | h1 ps p ih =>
      obtain ⟨m, w⟩ := p
      intro n hn
      by_cases e : m = n
      · subst e; exact ⟨w, ps, [], by simp, by simp⟩
      · have : n ∈ ps.map (·.1) := by
          simp only [List.map_append, List.map_cons, List.map_nil, List.mem_append, List.mem_singleton] at hn
          rcases hn with h | h
          · exact h
          · exact absurd h.symm e
        obtain ⟨v, a, b, rfl, hb⟩ := ih n this
        refine ⟨v, a, b ++ [(m, w)], by simp, ?_⟩
        intro p hp
        rcases List.mem_append.1 hp with hp | hp
        · exact hb p hp
        · simp at hp; subst hp; exact e
  obtain ⟨nd, nm⟩ := hnd ps
  intro hs
  refine ⟨fun n v => ?_, ?_, ?_⟩
  · have hmem : (⟨n, v⟩ : Header) ∈ hs ↔ (n, v) ∈ ps.foldl (fun o p => ScriptObject.setProperty o p.1 p.2) ([] : ScriptObject) := by
      simp only [hs, headersFromScript, List.mem_map]
      constructor
      · rintro ⟨⟨a, b⟩, h, e⟩; injection e with e1 e2; subst e1 e2; exact h
      · intro h; exact ⟨(n, v), h, rfl⟩
    rw [hmem, ← mem_prop _ nd n v]
    constructor
    · intro h; obtain ⟨w, h1, h2⟩ := hl.1 n v h; subst h2; exact h1
    · intro h
      have : n ∈ ps.map (·.1) := (nm n).1 (List.mem_map.2 ⟨_, (mem_prop _ nd n v).1 h, rfl⟩)
      obtain ⟨w, hw⟩ := ex_last ps n this
      obtain ⟨u, h1, h2⟩ := hl.1 n w hw
      subst h2
      rw [h] at h1
      injection h1 with h1
      rw [h1]; exact hw
  · simp only [hs, headersFromScript, List.map_map]
    exact nd
  · intro hd
    have : ∀ ps : List (Bytes × Bytes), (ps.map (·.1)).Nodup → ps.foldl (fun o p => ScriptObject.setProperty o p.1 p.2) ([] : ScriptObject) = ps := by
      intro ps
      induction ps using list_snoc_ind with
      | h0 => simp
      | h1 ps p ih =>
        intro h
        rw [List.map_append] at h
        obtain ⟨h1, -, h3⟩ := List.nodup_append.1 h
        rw [List.foldl_append, ih h1]
        simp only [List.foldl_cons, List.foldl_nil]
        have set_new : ∀ (o : ScriptObject) (n v : Bytes), n ∉ o.map (·.1) → o.setProperty n v = o ++ [(n, v)] := by
          intro o n v
          induction o with
          | nil => simp [ScriptObject.setProperty]
          | cons q o ih2 =>
            intro hn
            simp only [List.map_cons, List.mem_cons, not_or] at hn
            rw [ScriptObject.setProperty, if_neg (fun e => hn.1 e.symm), ih2 hn.2]
            rfl
        exact set_new _ _ _ (fun hm => h3 p.1 hm p.1 (by simp) rfl)
    simp only [hs, headersFromScript]
    rw [this ps hd]

/-! ### the hypotheses are met, and where C72 is false -/

/-- The query items of a url, for the examples: there are none. -/
def noItems : Bytes → List (Bytes × Bytes) := fun _ => []

/-- The hypotheses of `C72_shown`: an encoded path, a header and content. -/
example : ∃ s, Reach Proper s ∧ WithHandler s.c.log s.c.req ∧
    (received s.c.log == b!"POST /a%20b?x=1 HTTP/1.1\r\nHost: h\r\nContent-Length: 2\r\n\r\nhi" &&
      (let o := scriptRequest noItems s.c.req
       o.method == b!"POST" && o.path == b!"/a b" && o.queryString == b!"x=1" && o.headers.property b!"Host" == some b!"h" && o.content == b!"hi")) = true :=
  handed (ls := [.init, .recv b!"POST /a%20b?x=1 HTTP/1.1\r\nHost: h\r\nContent-Length: 2\r\n\r\nhi", .call .processInput] ++ taus 4) (by decide +kernel)

/-- C72 is false of the code for content with a `%`: content is not percent-encoded, but is decoded. -/
theorem C72_content_violation : ∃ s, Reach Proper s ∧ WithHandler s.c.log s.c.req ∧
    (received s.c.log == b!"POST /a HTTP/1.1\r\nContent-Length: 8\r\n\r\n100%4100" && s.c.req.content == b!"100%4100" && (scriptRequest noItems s.c.req).content == b!"100A00") = true :=
  handed (ls := [.init, .recv b!"POST /a HTTP/1.1\r\nContent-Length: 8\r\n\r\n100%4100", .call .processInput] ++ taus 4) (by decide +kernel)

/-- C72 is false of the code for the values of headers with a `%`. -/
theorem C72_value_violation : ∃ s, Reach Proper s ∧ WithHandler s.c.log s.c.req ∧
    (received s.c.log == b!"GET /a HTTP/1.1\r\nReferer: /x%2Fy\r\n\r\n" && (scriptRequest noItems s.c.req).headers.property b!"Referer" == some b!"/x/y") = true :=
  handed (ls := [.init, .recv b!"GET /a HTTP/1.1\r\nReferer: /x%2Fy\r\n\r\n", .call .processInput] ++ taus 3) (by decide +kernel)

/-- C72 is false of the code for repeated headers: the first cookie is not shown. -/
theorem C72_repeated_violation : ∃ s, Reach Proper s ∧ WithHandler s.c.log s.c.req ∧
    (received s.c.log == b!"GET /a HTTP/1.1\r\nCookie: a=1\r\nCookie: b=2\r\n\r\n" && s.c.req.headers == [⟨b!"Cookie", b!"a=1"⟩, ⟨b!"Cookie", b!"b=2"⟩] &&
      (scriptRequest noItems s.c.req).headers == [(b!"Cookie", b!"b=2")]) = true :=
  handed (ls := [.init, .recv b!"GET /a HTTP/1.1\r\nCookie: a=1\r\nCookie: b=2\r\n\r\n", .call .processInput] ++ taus 3) (by decide +kernel)

/-- C72 is false of the code for headers whose names are written in another case: they are found by the connection (C01) but not by the script. -/
theorem C72_case_violation : ∃ s, Reach Proper s ∧ WithHandler s.c.log s.c.req ∧
    (received s.c.log == b!"GET /a HTTP/1.1\r\ncontent-type: x\r\n\r\n" && getFieldValue s.c.req.headers b!"Content-Type" == b!"x" &&
      (scriptRequest noItems s.c.req).headers.property b!"Content-Type" == none) = true :=
  handed (ls := [.init, .recv b!"GET /a HTTP/1.1\r\ncontent-type: x\r\n\r\n", .call .processInput] ++ taus 3) (by decide +kernel)

/-- `C72_headers_given`: a script sets a header twice. -/
example : headersFromScript (([(b!"A", b!"1"), (b!"B", b!"2"), (b!"A", b!"3")] : List (Bytes × Bytes)).foldl (fun o p => ScriptObject.setProperty o p.1 p.2) []) = [⟨b!"A", b!"3"⟩, ⟨b!"B", b!"2"⟩] := by decide

end Pillow.Props
