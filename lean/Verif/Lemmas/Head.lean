import Verif.Lemmas.Response
set_option linter.unusedSimpArgs false
set_option linter.unusedVariables false
/-!
# What `buildHead` computes, in terms of the specification
-/
namespace Pillow
open Spec

theorem lastHeader_nil (n : Bytes) : lastHeader [] n = none := rfl

theorem lastHeader_cons (h : Header) (hs : Headers) (n : Bytes) :
    lastHeader (h :: hs) n = (lastHeader hs n).or (if SameCI h.name n then some h else none) := by
  unfold lastHeader
  rw [List.filter_cons]
  by_cases hc : SameCI h.name n
  · simp only [hc, decide_true, if_true]
    rw [List.getLast?_cons]
    cases (hs.filter fun h => decide (SameCI h.name n)).getLast? <;> simp
  · simp [hc]

theorem lineOf_eq (h : Header) : headerLine h = lineOf h := rfl

theorem otherLines_cons (h : Header) (hs : Headers) :
    otherLines (h :: hs) = (if Special h then [] else lineOf h) ++ otherLines hs := by
  unfold otherLines
  rw [List.filter_cons]
  by_cases hc : Special h <;> simp [hc]

structure ScanSpec (s0 s : HdrScan) (hs : Headers) : Prop where
  out : s.out = s0.out ++ otherLines hs
  len : s.len = declaredLength s0.len hs
  ctype : s.ctype = (lastHeader hs b!"content-type").or s0.ctype
  conn : s.conn = (lastHeader hs b!"connection").or s0.conn
  te : s.te = (lastHeader hs b!"transfer-encoding").or s0.te

theorem declaredLength_cons (dflt : Int) (h : Header) (hs : Headers) : declaredLength dflt (h :: hs) =
    declaredLength (if SameCI h.name b!"content-length" then (qtToLongLong h.value).getD (-1) else dflt) hs := by
  unfold declaredLength
  rw [lastHeader_cons]
  cases lastHeader hs b!"content-length" with
  | some h' => simp
  | none => by_cases hc : SameCI h.name b!"content-length" <;> simp [hc]

theorem scan_spec (hs : Headers) : ∀ s0, ScanSpec s0 (hs.foldl scanHeader s0) hs := by
  induction hs with
  | nil => intro s0; exact ⟨by simp [otherLines], rfl, rfl, rfl, rfl⟩
  | cons h hs ih =>
    intro s0
    rw [List.foldl_cons]
    have ih := ih (scanHeader s0 h)
    have k1 := asciiEqualsCILower_iff h.name b!"content-length" (by decide)
    have k2 := asciiEqualsCILower_iff h.name b!"content-type" (by decide)
    have k3 := asciiEqualsCILower_iff h.name b!"connection" (by decide)
    have k4 := asciiEqualsCILower_iff h.name b!"transfer-encoding" (by decide)
    have excl : ∀ x y : Bytes, ¬ SameCI x y → SameCI h.name x → ¬ SameCI h.name y := by
      intro x y hxy hx hy; exact hxy (hx.symm.trans hy)
    have main : ∀ s1 : HdrScan, scanHeader s0 h = s1 →
        s1.out = s0.out ++ (if Special h then [] else lineOf h) →
        s1.len = (if SameCI h.name b!"content-length" then (qtToLongLong h.value).getD (-1) else s0.len) →
        s1.ctype = (if SameCI h.name b!"content-type" then some h else none).or s0.ctype →
        s1.conn = (if SameCI h.name b!"connection" then some h else none).or s0.conn →
        s1.te = (if SameCI h.name b!"transfer-encoding" then some h else none).or s0.te →
        ScanSpec s0 (hs.foldl scanHeader (scanHeader s0 h)) (h :: hs) := by
      intro s1 e o1 o2 o3 o4 o5
      rw [e] at ih ⊢
      refine ⟨?_, ?_, ?_, ?_, ?_⟩
      · rw [ih.out, o1, otherLines_cons]; simp
      · rw [ih.len, o2, declaredLength_cons]
      · rw [ih.ctype, o3, lastHeader_cons, Option.or_assoc]
      · rw [ih.conn, o4, lastHeader_cons, Option.or_assoc]
      · rw [ih.te, o5, lastHeader_cons, Option.or_assoc]
    refine main _ rfl ?_ ?_ ?_ ?_ ?_ <;> unfold scanHeader <;>
      (by_cases c1 : SameCI h.name b!"content-length"
       · have n2 := excl _ b!"content-type" (by decide) c1
         have n3 := excl _ b!"connection" (by decide) c1
         have n4 := excl _ b!"transfer-encoding" (by decide) c1
         rw [if_pos (k1.2 c1)]; simp [c1, n2, n3, n4, Special]
       · rw [if_neg (fun e => c1 (k1.1 e))]
         by_cases c2 : SameCI h.name b!"content-type"
         · have n3 := excl _ b!"connection" (by decide) c2
           have n4 := excl _ b!"transfer-encoding" (by decide) c2
           rw [if_pos (k2.2 c2)]; simp [c1, c2, n3, n4, Special]
         · rw [if_neg (fun e => c2 (k2.1 e))]
           by_cases c3 : SameCI h.name b!"connection"
           · have n4 := excl _ b!"transfer-encoding" (by decide) c3
             rw [if_pos (k3.2 c3)]; simp [c1, c2, c3, n4, Special]
           · rw [if_neg (fun e => c3 (k3.1 e))]
             by_cases c4 : SameCI h.name b!"transfer-encoding"
             · rw [if_pos (k4.2 c4)]; simp [c1, c2, c3, c4, Special]
             · rw [if_neg (fun e => c4 (k4.1 e))]; simp [c1, c2, c3, c4, Special, lineOf_eq])

/-- The decisions and the bytes of a head. -/
structure HeadSpec (r : ReqView) (lenIn status : Int) (hs : Headers) (h : RespHead) : Prop where
  code : h.status = status
  hdrs : h.headers = hs
  len : h.len = declaredLength lenIn hs
  chunked : h.chunked = true ↔ r.version = b!"HTTP/1.1" ∧ h.len = -1 ∧ HandlerChunks hs
  keepAlive : h.keepAlive = true ↔ ClientKeeps r ∧ (0 ≤ h.len ∨ h.chunked = true) ∧ ¬ HandlerCloses hs
  bytes : ∃ cl, lengthLine h.len = some cl ∧ h.bytes = statusLine r status ++ otherLines hs ++ cl ++
    typeHeader hs h.len ++ connectionHeader r h.keepAlive ++ encodingHeader hs h.chunked ++ b!"\r\n"

theorem head_spec {r : ReqView} {lenIn status : Int} {hs : Headers} {h : RespHead}
    (e : buildHead [] (r.version == b!"HTTP/1.1") r lenIn false status hs = some h) : HeadSpec r lenIn status hs h := by
  unfold buildHead at e
  simp only [List.nil_append] at e
  have sp := scan_spec hs { out := statusLine r status, len := lenIn }
  generalize hs.foldl scanHeader { out := statusLine r status, len := lenIn } = sc at e sp
  obtain ⟨o1, o2, o3, o4, o5⟩ := sp
  simp only [Option.or_none] at o1 o2 o3 o4 o5
  cases hl : lengthLine sc.len with
  | none => rw [hl] at e; cases e
  | some cl =>
    rw [hl, Option.map_some, Option.some.injEq] at e
    subst e
    have hte : sc.teChunked = true ↔ HandlerChunks hs := by
      unfold HdrScan.teChunked HandlerChunks
      rw [o5]
      cases lastHeader hs b!"transfer-encoding" with
      | none => simp
      | some t => simp [asciiEqualsCILower_iff _ _ (show ∀ b ∈ b!"chunked", ¬ (65 ≤ b ∧ b ≤ 90) by decide)]
    have hch : sc.chunked (r.version == b!"HTTP/1.1") false = true ↔ r.version = b!"HTTP/1.1" ∧ sc.len = -1 ∧ HandlerChunks hs := by
      unfold HdrScan.chunked HdrScan.chunkable
      by_cases hc : sc.teChunked = true
      · simp [hc, ← hte]
      · simp [hc, ← hte]
    have hcl : clientKeepAlive (r.version == b!"HTTP/1.1") r = true ↔ ClientKeeps r := by
      unfold clientKeepAlive ClientKeeps
      rw [tok_firstValue _ _ (by decide)]
      by_cases hv : r.version = b!"HTTP/1.1"
      · simp only [hv, beq_self_eq_true, if_true, Bool.not_eq_true', ← asciiEqualsCILower_iff _ _ (show ∀ b ∈ b!"close", ¬ (65 ≤ b ∧ b ≤ 90) by decide)]
        simp
      · simp only [beq_eq_false_iff_ne.2 hv, if_neg hv, Bool.false_eq_true, if_false]
        exact asciiEqualsCILower_iff _ _ (by decide)
    have hka : sc.keepAlive (r.version == b!"HTTP/1.1") r (sc.chunked (r.version == b!"HTTP/1.1") false) = true ↔
        ClientKeeps r ∧ (0 ≤ sc.len ∨ sc.chunked (r.version == b!"HTTP/1.1") false = true) ∧ ¬ HandlerCloses hs := by
      unfold HdrScan.keepAlive HandlerCloses
      rw [o4, ← hcl]
      generalize sc.chunked (r.version == b!"HTTP/1.1") false = ch
      by_cases hk : clientKeepAlive (r.version == b!"HTTP/1.1") r = true
      · rw [if_pos hk]
        cases lastHeader hs b!"connection" with
        | none => simp [hk]
        | some t =>
          simp only [hk, Bool.and_eq_true, Bool.or_eq_true, decide_eq_true_eq, true_and, Option.some.injEq, Bool.not_eq_true',
            exists_eq_left', ← asciiEqualsCILower_iff _ _ (show ∀ b ∈ b!"close", ¬ (65 ≤ b ∧ b ≤ 90) by decide)]
          simp
      · simp [hk]
    refine ⟨rfl, rfl, o2, hch, hka, cl, hl, ?_⟩
    show sc.out ++ cl ++ sc.typeLine ++ connectionLine _ _ ++ teLine _ ++ b!"\r\n" = _
    have t1 : sc.typeLine = typeHeader hs sc.len := by
      unfold HdrScan.typeLine typeHeader
      rw [o3]
      cases lastHeader hs b!"content-type" <;> rfl
    have t2 : ∀ ka : Bool, connectionLine (r.version == b!"HTTP/1.1") ka = connectionHeader r ka := by
      intro ka
      unfold connectionLine connectionHeader
      by_cases hv : r.version = b!"HTTP/1.1" <;> cases ka <;> simp [hv]
    have t3 : teLine (sc.teOut (r.version == b!"HTTP/1.1")) = encodingHeader hs (sc.chunked (r.version == b!"HTTP/1.1") false) := by
      unfold encodingHeader HdrScan.teOut teLine HdrScan.chunked HdrScan.teChunked
      rw [o5]
      cases lastHeader hs b!"transfer-encoding" with
      | none => simp
      | some t =>
        simp only [← asciiEqualsCILower_iff _ _ (show ∀ b ∈ b!"chunked", ¬ (65 ≤ b ∧ b ≤ 90) by decide)]
        by_cases ha : asciiEqualsCILower t.value b!"chunked" = true <;>
          by_cases hb : sc.chunkable (r.version == b!"HTTP/1.1") = true <;> simp [lineOf_eq, ha, hb]
    rw [t1, t2, t3, o1]

theorem lengthLine_isSome (len : Int) (h : -2147483648 < len ∧ len < 2147483648) : lengthLine len =
    some (if len = -1 then [] else b!"Content-Length: " ++ renderInt 10 len ++ b!"\r\n") := by
  unfold lengthLine
  have ht : truncInt32 len = len := by unfold truncInt32; omega
  split
  · rename_i h1
    rw [ht, appendNumber_eq _ _ _ _ (by omega)]
    simp
  · rename_i h1
    rw [if_pos (by omega)]

end Pillow
