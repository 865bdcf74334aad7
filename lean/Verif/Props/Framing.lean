import Verif.Spec.Framing
import Verif.Props.Requests
import Verif.Lemmas.Agree
set_option linter.unusedSimpArgs false
set_option linter.unusedVariables false
/-!
# C90: where the server takes a request to end
-/
namespace Pillow.Props
open Pillow Pillow.Spec

theorem saysNumber_of_read {v : Bytes} {n : Nat} (h : readNat 10 v = some n) : SaysNumber v n :=
  ⟨[], [], v, [], n, by simp, by simp, .inl rfl, h, .inl ⟨.inl rfl, rfl⟩⟩

/-- The last `Content-Length` counts. -/
theorem last_length {h : ReqHead} {vs : List Bytes} {v : Bytes} {n : Nat} (hl : h.lengths = vs ++ [v]) (hv : readNat 10 v = some n) (hn : (n : Int) ≤ contentLimit) :
    announcedLength h = some (n : Int) := by
  unfold ReqHead.lengths at hl
  obtain ⟨ls, l, h1, h2, h3⟩ : ∃ ls l, h.headers.filter (fun l => decide (SameCI l.name b!"content-length")) = ls ++ [l] ∧ ls.map HeaderLine.value = vs ∧ l.value = v := by
    obtain ⟨a, b, e1, e2, e3⟩ := List.map_eq_append_iff.1 hl
    obtain ⟨l, e4, e5⟩ : ∃ l, b = [l] ∧ l.value = v := by
      cases b with
      | nil => simp at e3
      | cons l t =>
        simp at e3
        exact ⟨l, by rw [e3.2], e3.1⟩
    exact ⟨a, l, by rw [e1, e4], e2, e5⟩
  refine (C12_number h l (by rw [h1]; simp) _).2 ⟨by rw [h3]; exact saysNumber_of_read hv, by omega, ?_⟩
  unfold contentLimit at hn
  omega

theorem not_chunks {h : ReqHead} (he : ¬ h.Encoded) : ¬ h.InChunks := fun ⟨l, h1, h2, _⟩ => he ⟨l, h1, h2⟩

theorem carries_acceptable {h : ReqHead} {wire content : Bytes} (hw : h.Wf) (hm : Carries h wire content) (he : ¬ h.Encoded) (hs : h.render.length ≤ headLimit)
    (hc : (content.length : Int) ≤ contentLimit) : wire = content ∧ Acceptable h content.length := by
  cases hm with
  | chunked _ _ hi => exact absurd hi (not_chunks he)
  | sized _ _ hne hv =>
    refine ⟨rfl, hw, hs, ?_, hc⟩
    obtain ⟨vs, v, e⟩ : ∃ vs v, h.lengths = vs ++ [v] := ⟨_, _, (List.dropLast_concat_getLast hne).symm⟩
    exact last_length e (hv v (by rw [e]; simp)) hc
  | none _ hl =>
    refine ⟨rfl, hw, hs, ?_, hc⟩
    refine C12_no_length h fun l h1 h2 => ?_
    have : l.value ∈ h.lengths := by
      unfold ReqHead.lengths
      exact List.mem_map.2 ⟨l, List.mem_filter.2 ⟨h1, by simpa using h2⟩, rfl⟩
    rw [hl] at this
    cases this

theorem stream_requests {s : Bytes} {reqs : List (ReqHead × Bytes × Bytes)} {rest : Bytes} (h : Stream s reqs rest) (he : ∀ q ∈ reqs, ¬ q.1.Encoded) (hm : ∀ q ∈ reqs, Moderate q) :
    ∃ reqs', Requests s reqs' rest ∧ shownAll reqs' = meant reqs := by
  induction h with
  | nil s => exact ⟨[], .nil _, rfl⟩
  | cons h wire content s reqs rest hw hme _ ih =>
    obtain ⟨reqs', i1, i2⟩ := ih (fun q hq => he q (by simp [hq])) (fun q hq => hm q (by simp [hq]))
    obtain ⟨m1, m2⟩ := hm _ (List.mem_cons_self ..)
    obtain ⟨e, ha⟩ := carries_acceptable hw hme (he _ (List.mem_cons_self ..)) m1 m2
    subst e
    refine ⟨(h, wire) :: reqs', .cons h wire s reqs' rest ha i1, ?_⟩
    simp only [shownAll, meant, List.map_cons] at i2 ⊢
    rw [i2]

/-- C90, for requests without `Transfer-Encoding`: when the client has sent a stream that the RFC takes for the requests `reqs` (followed by something that is not a whole request), the server
hands out those, in order, with the content the RFC says they have, nothing else, and in the end all of them. -/
theorem C90_same_partial (s : Conf) (h : Reach Proper s) (reqs : List (ReqHead × Bytes × Bytes)) (rest : Bytes) (hr : Stream (received (epoch s.c.log)) reqs rest)
    (hm : ∀ q ∈ reqs, Moderate q) (he : ∀ q ∈ reqs, ¬ q.1.Encoded) (hc : ¬ Complete rest) :
    readys (epoch s.c.log) <+: meant reqs ∧ (Waiting s → readys (epoch s.c.log) = meant reqs) := by
  obtain ⟨reqs', h1, h2⟩ := stream_requests hr he hm
  rw [← h2]
  refine ⟨?_, fun hw => C13_exactly s h hw reqs' rest h1 hc⟩
  obtain ⟨r2, x2, k1, k2, -⟩ := C13_exact_requests s h
  rw [k2]
  rcases Requests.unique h1 k1 with ⟨e, -⟩ | ⟨-, -, e⟩ | ⟨e, -⟩
  · rw [show shownAll reqs' = shownAll r2 from e]; exact List.prefix_refl _
  · exact absurd e hc
  · exact e

/-! ### chunks -/

theorem methodChar_ne {b c : Byte} (h : MethodChar b) (hc : c = 13 ∨ c = 59 ∨ c = 32) : b ≠ c := by
  rintro rfl
  unfold MethodChar at h
  rcases hc with rfl | rfl | rfl <;> exact absurd h (by decide +kernel)

theorem hex_ne {size : Bytes} {n : Nat} (h : readNat 16 size = some n) : size ≠ [] ∧ ∀ b ∈ size, b ≠ 32 := by
  obtain ⟨h1, h2, -⟩ := readNat_hex h
  refine ⟨h1, fun b hb e => ?_⟩
  subst e
  exact absurd (h2 _ hb) (by decide +kernel)

/-- No head begins with the size of a chunk. -/
theorem chunk_bad (size t : Bytes) (c : Byte) (n : Nat) (hs : readNat 16 size = some n) (hc : c = 13 ∨ c = 59) : BadHead (size ++ c :: t) := by
  refine .inl fun h hw => ?_
  obtain ⟨rest, hrest⟩ : ∃ rest, h.render = h.method ++ 32 :: rest := ⟨h.target.uri ++ (fragText h.fragment ++ 32 :: (h.version ++ 13 :: 10 :: ((h.headers.map HeaderLine.render).flatten ++ [13, 10]))), by unfold ReqHead.render; simp [List.append_assoc]⟩
  have hk : ∀ k, k = min size.length h.method.length → (size ++ c :: t)[k]? ≠ (h.method ++ 32 :: rest)[k]? := by
    intro k hk e
    by_cases h1 : size.length < h.method.length
    · have hk' : k = size.length := by omega
      subst hk'
      rw [List.getElem?_append_right (Nat.le_refl _), List.getElem?_append_left h1] at e
      simp at e
      have hm := hw.method_chars _ (List.getElem_mem h1)
      rw [List.getElem?_eq_getElem h1] at e
      simp at e
      rw [← e] at hm
      exact methodChar_ne hm (by rcases hc with h | h <;> simp [h]) rfl
    · by_cases h2 : size.length = h.method.length
      · have hk' : k = size.length := by omega
        subst hk'
        rw [List.getElem?_append_right (Nat.le_refl _), h2, List.getElem?_append_right (Nat.le_refl _)] at e
        simp at e
        rcases hc with rfl | rfl <;> cases e
      · have hk' : k = h.method.length := by omega
        subst hk'
        have hlt : h.method.length < size.length := by omega
        rw [List.getElem?_append_right (Nat.le_refl _), List.getElem?_append_left hlt, List.getElem?_eq_getElem hlt] at e
        simp at e
        exact (hex_ne hs).2 _ (List.getElem_mem hlt) e
  have l1 : min size.length h.method.length < (size ++ c :: t).length := by simp; omega
  have l2 : min size.length h.method.length < (h.method ++ 32 :: rest).length := by simp; omega
  rw [hrest]
  refine ⟨fun hp => ?_, fun hp => ?_⟩
  · obtain ⟨z, hz⟩ := hp
    refine hk _ rfl ?_
    rw [← hz, List.getElem?_append_left l2]
  · obtain ⟨z, hz⟩ := hp
    refine hk _ rfl ?_
    rw [← hz, List.getElem?_append_left l1]

theorem cr_bad (t : Bytes) : BadHead (13 :: t) := by
  refine .inl fun h hw => ?_
  obtain ⟨m, ms, hm⟩ : ∃ m ms, h.method = m :: ms := by
    cases e : h.method with
    | nil => have := hw.method_len; rw [e] at this; simp at this
    | cons m ms => exact ⟨m, ms, rfl⟩
  obtain ⟨rest, hrest⟩ : ∃ rest, h.render = m :: rest := by
    cases e : h.render with
    | nil => unfold ReqHead.render at e; simp at e
    | cons a b =>
      unfold ReqHead.render at e
      rw [hm] at e
      simp only [List.cons_append, List.cons.injEq] at e
      exact ⟨b, by rw [e.1]⟩
  have hne : m ≠ 13 := methodChar_ne (hw.method_chars m (by rw [hm]; simp)) (.inl rfl)
  rw [hrest]
  refine ⟨?_, ?_⟩ <;> rintro ⟨z, hz⟩ <;> simp at hz
  · exact hne hz.1
  · exact hne hz.1.symm

theorem pieces_bad {wire content : Bytes} (h : InPieces wire content) (rest : Bytes) : BadHead (wire ++ rest) := by
  have key : ∀ (size ext t : Bytes) (n : Nat), readNat 16 size = some n → (ext = [] ∨ ∃ t, ext = 59 :: t ∧ 13 ∉ t ∧ 10 ∉ t) → BadHead (size ++ (ext ++ 13 :: t)) := by
    intro size ext t n h1 h2
    rcases h2 with rfl | ⟨x, rfl, -⟩
    · exact chunk_bad size t 13 n h1 (.inl rfl)
    · exact chunk_bad size (x ++ 13 :: t) 59 n h1 (.inr rfl)
  cases h with
  | last size ext h1 h2 =>
    have := key size ext (10 :: 13 :: 10 :: rest) _ h1 h2
    simpa [List.append_assoc] using this
  | chunk size ext data wire content h1 _ h2 _ =>
    have := key size ext (10 :: (data ++ 13 :: 10 :: (wire ++ rest))) _ h1 h2
    simpa [List.append_assoc] using this

/-- C90 does not hold: **every** request whose content is sent in chunks (without `Content-Length`, as the RFC demands) is handed out without its content, and the content is then answered with
400, as if it was another request: the request the client meant is never handed out, unless it has no content. -/
theorem C90_chunked_violation (s : Conf) (hr : Reach Proper s) (before : List (ReqHead × Bytes × Bytes)) (h : ReqHead) (wire content rest : Bytes)
    (hs : Stream (received (epoch s.c.log)) before (h.render ++ wire ++ rest)) (hm : ∀ q ∈ before, Moderate q) (he : ∀ q ∈ before, ¬ q.1.Encoded)
    (hw : h.Wf) (hl : h.render.length ≤ headLimit) (hi : h.InChunks) (hn : h.lengths = []) (hp : InPieces wire content) :
    readys (epoch s.c.log) <+: meant before ++ [h.shown []] ∧ ¬ Waiting s ∧
    ∀ code, Ev.errorReply code ∈ epoch s.c.log → code = 400 ∧ readys (epoch s.c.log) = meant before ++ [h.shown []] := by
  obtain ⟨reqs, h1, h2⟩ := stream_requests hs he hm
  have ha : Acceptable h ([] : Bytes).length := by
    refine ⟨hw, hl, ?_, by unfold contentLimit; simp⟩
    refine C12_no_length h fun l k1 k2 => ?_
    have : l.value ∈ h.lengths := by
      unfold ReqHead.lengths
      exact List.mem_map.2 ⟨l, List.mem_filter.2 ⟨k1, by simpa using k2⟩, rfl⟩
    rw [hn] at this
    cases this
  have h3 := Requests.snoc h [] (wire ++ rest) h1 (by simp [List.append_assoc]) ha
  have := C11_refused s hr _ _ 400 h3 (.inl ⟨rfl, pieces_bad hp rest⟩)
  have e : shownAll (reqs ++ [(h, [])]) = meant before ++ [h.shown []] := by rw [← h2]; simp [shownAll]
  rw [e] at this
  exact this

/-- The head of a request with both a `Content-Length` and a `Transfer-Encoding`. -/
def smuggler (k : Nat) : ReqHead :=
  { method := b!"POST", target := .origin b!"/" none, fragment := none, major := b!"1", minor := b!"1",
    headers := [⟨b!"Content-Length", 1, digits 10 k⟩, ⟨b!"Transfer-Encoding", 1, b!"chunked"⟩] }

/-- C90 does not hold: whatever request `x` with content `c` (that a server would accept) is put into the content of *one* request, sent in chunks: with a suitable `Content-Length`
(that the RFC says does not count) the server hands it out as a request of its own. -/
theorem C90_smuggling_violation (x : ReqHead) (c : Bytes) (ha : Acceptable x c.length) :
    ∃ h wire, h.Wf ∧ h.render.length ≤ headLimit ∧ Carries h wire (x.render ++ c) ∧
      ∃ first, first ≠ h.shown (x.render ++ c) ∧ ∀ s, Reach Proper s → ∀ rest, received (epoch s.c.log) = h.render ++ wire ++ rest →
        readys (epoch s.c.log) <+: [first, x.shown c] ∧ ¬ Waiting s ∧ ∀ code, Ev.errorReply code ∈ epoch s.c.log → code = 400 ∧ readys (epoch s.c.log) = [first, x.shown c] := by
  have hx : x.render ≠ [] := by unfold ReqHead.render; simp
  generalize hn : (x.render ++ c).length = n
  have hn16 : n < 16 ^ (7 + 1) := by
    have h1 := ha.short
    have h2 := ha.small
    unfold headLimit at h1
    unfold contentLimit at h2
    rw [← hn]
    simp only [List.length_append]
    have : (16 : Nat) ^ (7 + 1) = 4294967296 := by decide
    omega
  have hlen := digits_len 7 n hn16
  have hpos : 0 < (digits 16 n).length := List.length_pos_iff.2 (digits_ne_nil 16 n)
  generalize hk : (digits 16 n).length + 2 = k
  have hk2 : 3 ≤ k ∧ k ≤ 10 := by omega
  have hall : ∀ k, k ≤ 10 → (smuggler k).render.length ≤ headLimit ∧ (smuggler k).lengths = [digits 10 k] ∧ (∀ b ∈ digits 10 k, b ≠ 13 ∧ b ≠ 32) := by
    intro k hk
    have : k = 0 ∨ k = 1 ∨ k = 2 ∨ k = 3 ∨ k = 4 ∨ k = 5 ∨ k = 6 ∨ k = 7 ∨ k = 8 ∨ k = 9 ∨ k = 10 := by omega
    rcases this with h | h | h | h | h | h | h | h | h | h | h <;> subst h <;> decide +kernel
  obtain ⟨p1, p2, p3⟩ := hall k hk2.2
  have hwf : (smuggler k).Wf := by
    refine ⟨by simp [smuggler], ?_, ?_, (by intro f hf; cases hf), ⟨by simp [smuggler], ?_⟩, ⟨by simp [smuggler], ?_⟩, ?_⟩
    · show ∀ b ∈ b!"POST", MethodChar b
      unfold MethodChar; decide +kernel
    · exact ⟨⟨[], rfl, .nil⟩, fun q hq => by cases hq⟩
    · show ∀ b ∈ b!"1", Digit b
      unfold Digit; decide +kernel
    · show ∀ b ∈ b!"1", Digit b
      unfold Digit; decide +kernel
    · intro l hl
      simp only [smuggler, List.mem_cons, List.not_mem_nil, or_false] at hl
      rcases hl with rfl | rfl
      · refine ⟨by simp, ?_, fun hm => (p3 _ hm).1 rfl, ?_⟩
        · show ∀ b ∈ b!"Content-Length", TokenChar b
          unfold TokenChar; decide +kernel
        · intro hh
          have := List.mem_of_head? hh
          exact (p3 _ this).2 rfl
      · refine ⟨by simp, ?_, by simp, by simp⟩
        show ∀ b ∈ b!"Transfer-Encoding", TokenChar b
        unfold TokenChar; decide +kernel
  refine ⟨smuggler k, digits 16 n ++ [] ++ b!"\r\n" ++ (x.render ++ c) ++ b!"\r\n" ++ (b!"0" ++ [] ++ b!"\r\n" ++ b!"\r\n"), hwf, p1, ?_, ?_⟩
  · refine .chunked _ _ ⟨⟨b!"Transfer-Encoding", 1, b!"chunked"⟩, by simp [smuggler], by decide +kernel, by decide +kernel⟩ ?_
    have := InPieces.chunk (digits 16 n) [] (x.render ++ c) _ [] (by rw [hn]; exact readNat_digits 16 (by omega) (by omega) n) (by simp [hx]) (.inl rfl)
      (.last b!"0" [] (by decide +kernel) (.inl rfl))
    simpa using this
  · refine ⟨(smuggler k).shown (digits 16 n ++ b!"\r\n"), fun e => ?_, fun s hr rest hrec => ?_⟩
    · have e2 : digits 16 n ++ b!"\r\n" = x.render ++ c := by
        have := congrArg ReqView.content e
        simpa [ReqHead.shown, smuggler, ReqHead.view] using this
      have hb : BadHead (digits 16 n ++ 13 :: [10]) := chunk_bad (digits 16 n) [10] 13 n (readNat_digits 16 (by omega) (by omega) n) (.inl rfl)
      have hb' : BadHead (x.render ++ c) := by rw [← e2]; exact hb
      exact errorReason_not_complete (.inl ⟨rfl, hb'⟩) ⟨x, c, [], by simp, ha⟩
    · have h1 : Acceptable (smuggler k) (digits 16 n ++ b!"\r\n").length := by
        refine ⟨hwf, p1, ?_, ?_⟩
        · have : (digits 16 n ++ b!"\r\n").length = k := by simp; omega
          rw [this]
          exact last_length (vs := []) p2 (readNat_digits 10 (by omega) (by omega) k) (by unfold contentLimit; omega)
        · unfold contentLimit; simp; omega
      have h2 : Requests (received (epoch s.c.log)) [(smuggler k, digits 16 n ++ b!"\r\n"), (x, c)] (b!"\r\n" ++ (b!"0" ++ [] ++ b!"\r\n" ++ b!"\r\n") ++ rest) := by
        have := Requests.cons (smuggler k) (digits 16 n ++ b!"\r\n") _ _ _ h1 (Requests.cons x c _ _ _ ha (.nil (b!"\r\n" ++ (b!"0" ++ [] ++ b!"\r\n" ++ b!"\r\n") ++ rest)))
        rw [hrec]
        simpa [List.append_assoc] using this
      exact C11_refused s hr _ _ 400 h2 (.inl ⟨rfl, cr_bad _⟩)

/-- C90 does not hold: a request with several `Content-Length` headers that contradict each other, which the RFC says must be refused, is handed out; the last one counts. -/
theorem C90_lengths_violation (s : Conf) (hr : Reach Proper s) (hw : Waiting s) (h : ReqHead) (content rest : Bytes) (hrec : received (epoch s.c.log) = h.render ++ content ++ rest)
    (hwf : h.Wf) (hl : h.render.length ≤ headLimit) (vs : List Bytes) (v : Bytes) (hls : h.lengths = vs ++ [v]) (hv : readNat 10 v = some content.length)
    (hc : (content.length : Int) ≤ contentLimit) : ∃ more, readys (epoch s.c.log) = h.shown content :: more := by
  have h2 : Requests (received (epoch s.c.log)) [(h, content)] rest := by
    rw [hrec]
    exact .cons h content rest [] rest ⟨hwf, hl, last_length hls hv hc, hc⟩ (.nil _)
  obtain ⟨⟨more, hmore⟩, -⟩ := C13_nothing_held_back s hr hw _ _ h2
  exact ⟨more, by rw [← hmore]; simp [shownAll]⟩

/-! ### the hypotheses are met -/

def sizedHead : ReqHead :=
  { method := b!"POST", target := .origin b!"/a" none, fragment := none, major := b!"1", minor := b!"1", headers := [⟨b!"Content-Length", 1, b!"3"⟩, ⟨b!"content-length", 0, b!"03"⟩] }

def chunkedHead : ReqHead :=
  { method := b!"POST", target := .origin b!"/a" none, fragment := none, major := b!"1", minor := b!"1", headers := [⟨b!"Transfer-Encoding", 1, b!"chunked"⟩] }

def getHead : ReqHead := { method := b!"GET", target := .origin b!"/admin" none, fragment := none, major := b!"1", minor := b!"1", headers := [] }

theorem escText_all : ∀ (p : Bytes), (∀ b ∈ p, PathChar b) → EscText PathChar p
  | [], _ => .nil
  | b :: t, h => .plain b t (h b (by simp)) (escText_all t fun x hx => h x (by simp [hx]))

theorem head_wf (h : ReqHead) (p : Bytes) (ht : h.target = .origin (47 :: p) none) (hf : h.fragment = none)
    (hd : (decide (1 ≤ h.method.length ∧ h.method.length ≤ 20) && h.method.all (fun b => (upperA ++ digitA ++ b!"$-_.").contains b) && p.all (fun b => decide (32 < b ∧ b ≠ 127 ∧ b ≠ 35 ∧ b ≠ 37 ∧ b ≠ 63)) &&
      decide (h.major ≠ []) && h.major.all (fun b => digitA.contains b) && decide (h.minor ≠ []) && h.minor.all (fun b => digitA.contains b) &&
      h.headers.all (fun l => decide (l.name ≠ []) && l.name.all (fun b => decide (32 < b ∧ b < 127) && !(b!"()<>@,;:\\\"/[]?={} \t").contains b) && !l.value.contains 13 && decide (l.value.head? ≠ some 32))) = true) : h.Wf := by
  simp only [Bool.and_eq_true, decide_eq_true_eq, List.all_eq_true, List.contains_iff_mem] at hd
  obtain ⟨⟨⟨⟨⟨⟨⟨d1, d2⟩, d3⟩, d4⟩, d5⟩, d6⟩, d7⟩, d8⟩ := hd
  refine ⟨d1, d2, ?_, (by rw [hf]; intro f hf; cases hf), ⟨d4, d5⟩, ⟨d6, d7⟩, fun l hl => ?_⟩
  · rw [ht]
    refine ⟨⟨p, rfl, escText_all p fun b hb => ?_⟩, fun q hq => by cases hq⟩
    obtain ⟨e1, e2, e3, e4, e5⟩ := d3 b hb
    exact ⟨⟨e1, e2, e3, e4⟩, e5⟩
  · obtain ⟨⟨⟨e1, e2⟩, e3⟩, e4⟩ := d8 l hl
    refine ⟨e1, fun b hb => ?_, by simpa using e3, e4⟩
    obtain ⟨k1, k2⟩ := e2 b hb
    exact ⟨k1.1, k1.2, by simpa [oneOf] using k2⟩

/-- Of `C90_same_partial` and `C90_lengths_violation`: a request with its length given twice, answered; the connection waits for the next one. -/
example : ∃ s reqs, Reach Proper s ∧ Waiting s ∧ Stream (received (epoch s.c.log)) reqs [] ∧ (∀ q ∈ reqs, Moderate q) ∧ (∀ q ∈ reqs, ¬ q.1.Encoded) ∧ ¬ Complete [] ∧
    meant reqs = [sizedHead.shown b!"xyz"] ∧ sizedHead.lengths = [b!"3"] ++ [b!"03"] := by
  obtain ⟨s, h1, h2⟩ := exists_of_endsIn (allowed := Proper)
    (p := fun s => s.stack == [] && s.c.fault == none && unread s.c == [] && s.c.st == .receivingHeaders && received (epoch s.c.log) == sizedHead.render ++ b!"xyz" ++ [])
    (ls := waitingRun [sizedHead.render ++ b!"xyz"]) (by decide +kernel)
  simp only [Bool.and_eq_true, beq_iff_eq] at h2
  obtain ⟨⟨⟨⟨a1, a2⟩, a3⟩, a4⟩, a5⟩ := h2
  refine ⟨s, [(sizedHead, b!"xyz", b!"xyz")], h1, ⟨a1, a2, a3, .inl a4⟩, ?_, ?_, ?_, ?_, rfl, by decide +kernel⟩
  · rw [a5]
    refine .cons _ _ _ _ _ _ (head_wf _ b!"a" rfl rfl (by decide +kernel)) (.sized _ (by unfold ReqHead.Encoded; decide +kernel) (by decide +kernel) (by decide +kernel)) (.nil _)
  · intro q hq; simp at hq; subst hq; unfold Moderate; decide +kernel
  · intro q hq; simp at hq; subst hq; unfold ReqHead.Encoded; decide +kernel
  · rintro ⟨h, c, r, e, -⟩
    have := congrArg List.length e
    simp [ReqHead.render] at this

/-- Of `C90_chunked_violation`: a request with five bytes of content in a chunk; it was handed out without content, and then the connection has answered with 400. -/
example : ∃ s wire, Reach Proper s ∧ Stream (received (epoch s.c.log)) [] (chunkedHead.render ++ wire ++ []) ∧ chunkedHead.Wf ∧ chunkedHead.render.length ≤ headLimit ∧ chunkedHead.InChunks ∧
    chunkedHead.lengths = [] ∧ InPieces wire b!"hello" ∧ Ev.errorReply 400 ∈ epoch s.c.log := by
  obtain ⟨s, h1, h2⟩ := exists_of_endsIn (allowed := Proper)
    (p := fun s => received (epoch s.c.log) == chunkedHead.render ++ b!"5\r\nhello\r\n0\r\n\r\n" && decide (Ev.errorReply 400 ∈ epoch s.c.log))
    (ls := [.init, .recv (chunkedHead.render ++ b!"5\r\nhello\r\n0\r\n\r\n"), .call .processInput] ++ taus 3 ++ [.call (.writeResponse 204 [] b!"")] ++ taus 4 ++ [.ret] ++ taus 2 ++ [.ret] ++ taus 3)
    (by decide +kernel)
  simp only [Bool.and_eq_true, beq_iff_eq, decide_eq_true_eq] at h2
  refine ⟨s, b!"5\r\nhello\r\n0\r\n\r\n", h1, by rw [h2.1, List.append_nil]; exact .nil _, head_wf _ b!"a" rfl rfl (by decide +kernel), by decide +kernel,
    ⟨_, List.mem_singleton.2 rfl, by decide +kernel, by decide +kernel⟩, by decide +kernel, ?_, h2.2⟩
  exact .chunk b!"5" [] b!"hello" _ [] (by decide +kernel) (by simp) (.inl rfl) (.last b!"0" [] (by decide +kernel) (.inl rfl))

/-- Of `C90_smuggling_violation`; and the whole of it: one request by the RFC, two by the server, which answers both. -/
theorem C90_violation : Acceptable getHead ([] : Bytes).length ∧ ∃ s, Reach Proper s ∧
    Stream (received (epoch s.c.log)) [(smuggler 4, b!"17\r\n" ++ getHead.render ++ b!"\r\n0\r\n\r\n", getHead.render)] [] ∧
    received (epoch s.c.log) = b!"POST / HTTP/1.1\r\nContent-Length: 4\r\nTransfer-Encoding: chunked\r\n\r\n17\r\nGET /admin HTTP/1.1\r\n\r\n\r\n0\r\n\r\n" ∧
    (readys (epoch s.c.log)).map (fun r => (r.method, r.path, r.content)) = [(b!"POST", b!"/", b!"17\r\n"), (b!"GET", b!"/admin", [])] := by
  refine ⟨⟨head_wf _ b!"admin" rfl rfl (by decide +kernel), by decide +kernel, by decide +kernel, by decide +kernel⟩, ?_⟩
  obtain ⟨s, h1, h2⟩ := exists_of_endsIn (allowed := Proper)
    (p := fun s => received (epoch s.c.log) == b!"POST / HTTP/1.1\r\nContent-Length: 4\r\nTransfer-Encoding: chunked\r\n\r\n17\r\nGET /admin HTTP/1.1\r\n\r\n\r\n0\r\n\r\n" &&
      (readys (epoch s.c.log)).map (fun r => (r.method, r.path, r.content)) == [(b!"POST", b!"/", b!"17\r\n"), (b!"GET", b!"/admin", [])])
    (ls := [.init, .recv b!"POST / HTTP/1.1\r\nContent-Length: 4\r\nTransfer-Encoding: chunked\r\n\r\n17\r\nGET /admin HTTP/1.1\r\n\r\n\r\n0\r\n\r\n", .call .processInput] ++ taus 4 ++
      [.call (.writeResponse 204 [] b!"")] ++ taus 4 ++ [.ret] ++ taus 2 ++ [.ret] ++ taus 4) (by decide +kernel)
  simp only [Bool.and_eq_true, beq_iff_eq] at h2
  refine ⟨s, h1, ?_, h2.1, h2.2⟩
  have e : received (epoch s.c.log) = (smuggler 4).render ++ (b!"17\r\n" ++ getHead.render ++ b!"\r\n0\r\n\r\n") ++ [] := by rw [h2.1]; decide +kernel
  rw [e]
  refine .cons (smuggler 4) (b!"17\r\n" ++ getHead.render ++ b!"\r\n0\r\n\r\n") _ [] [] [] (head_wf _ [] rfl rfl (by decide +kernel)) ?_ (.nil _)
  refine .chunked _ _ ⟨⟨b!"Transfer-Encoding", 1, b!"chunked"⟩, by simp [smuggler], by decide +kernel, by decide +kernel⟩ ?_
  exact .chunk b!"17" [] getHead.render _ [] (by decide +kernel) (by decide +kernel) (.inl rfl) (.last b!"0" [] (by decide +kernel) (.inl rfl))

end Pillow.Props
