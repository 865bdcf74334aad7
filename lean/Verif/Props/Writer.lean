import Verif.Spec.Client
import Verif.Lemmas.QtNumber
import Verif.Props.Requests
/-!
# C49, C10: the request writer
-/
namespace Pillow.Props
open Pillow Pillow.Spec

theorem writerHeaders_eq : ∀ (hs : Headers) (b : Bytes), writerHeaders b hs = b ++ (hs.map lineOf).flatten
  | [], b => by simp [writerHeaders]
  | h :: hs, b => by simp [writerHeaders, writerHeaders_eq hs, lineOf]

/-- One request. -/
theorem write_frame (w : Writer) (r : OutRequest) (hb : w.builder = []) (hd : w.hasDevice = true) :
    ∃ out, w.write r = some (w, out) ∧ Frame r out.flatten := by
  obtain ⟨dev, b⟩ := w
  subst hb hd
  have hn : (r.data.length : Int) ≠ -(2 ^ (32 - 1) : Int) := by omega
  have hc := readInt_renderInt 10 (by omega) (by omega) (r.data.length : Int)
  have hri : renderInt 10 (r.data.length : Int) = digits 10 r.data.length := by
    unfold renderInt; rw [if_neg (by omega)]; simp
  rw [hri] at hc
  have hr : readNat 10 (digits 10 r.data.length) = some r.data.length := readNat_digits 10 (by omega) (by omega) _
  unfold Writer.write
  simp only [writerHeaders_eq, appendNumber_eq _ _ _ _ hn, hri]
  by_cases he : r.data = []
  · rw [he] at hr hc
    refine ⟨_, by simp [he]; rfl, digits 10 r.data.length, by rw [he]; exact hr, by rw [he]; exact hc.2, ?_⟩
    simp [he]
  · by_cases hl : r.data.length < 4096
    · refine ⟨_, by simp [he, hl]; rfl, digits 10 r.data.length, hr, hc.2, ?_⟩
      simp [he]
    · refine ⟨_, by simp [he, hl]; rfl, digits 10 r.data.length, hr, hc.2, ?_⟩
      simp [he]

theorem call_frames (w : Writer) (c : WCall) (hb : w.builder = []) :
    ∃ w' out, w.call c = some (w', out) ∧ w'.builder = [] ∧
      ((∃ b, c = .setDevice b ∧ w'.hasDevice = b ∧ out = []) ∨
       (w' = w ∧ w.hasDevice = false ∧ out = [] ∧ ∀ b, c ≠ .setDevice b) ∨
       (w' = w ∧ w.hasDevice = true ∧ (∀ b, c ≠ .setDevice b) ∧ ∃ r, WCall.request c = some r ∧ Frame r out.flatten)) := by
  have key : ∀ r, (∃ out, w.write r = some (w, out) ∧ ((w.hasDevice = false ∧ out = []) ∨ (w.hasDevice = true ∧ Frame r out.flatten))) := by
    intro r
    cases hd : w.hasDevice with
    | false => exact ⟨[], by simp [Writer.write, hd], .inl ⟨rfl, rfl⟩⟩
    | true =>
      obtain ⟨out, h1, h2⟩ := write_frame w r hb hd
      exact ⟨out, h1, .inr ⟨rfl, h2⟩⟩
  have fin : ∀ c r, WCall.request c = some r → (∀ b, c ≠ .setDevice b) → w.call c = w.write r → ∃ w' out, w.call c = some (w', out) ∧ w'.builder = [] ∧
      ((∃ b, c = .setDevice b ∧ w'.hasDevice = b ∧ out = []) ∨
       (w' = w ∧ w.hasDevice = false ∧ out = [] ∧ ∀ b, c ≠ .setDevice b) ∨
       (w' = w ∧ w.hasDevice = true ∧ (∀ b, c ≠ .setDevice b) ∧ ∃ r, WCall.request c = some r ∧ Frame r out.flatten)) := by
    intro c r h1 h2 h3
    obtain ⟨out, h4, h5⟩ := key r
    refine ⟨w, out, h3.trans h4, hb, ?_⟩
    rcases h5 with ⟨a, b⟩ | ⟨a, b⟩
    · exact .inr (.inl ⟨rfl, a, b, h2⟩)
    · exact .inr (.inr ⟨rfl, a, h2, r, h1, b⟩)
  cases c with
  | setDevice b => exact ⟨_, _, rfl, hb, .inl ⟨b, rfl, rfl, rfl⟩⟩
  | get p hs => exact fin _ _ rfl (by intro b h; cases h) rfl
  | head p hs => exact fin _ _ rfl (by intro b h; cases h) rfl
  | post p hs d => exact fin _ _ rfl (by intro b h; cases h) rfl
  | put p hs d => exact fin _ _ rfl (by intro b h; cases h) rfl
  | deleteResource p hs => exact fin _ _ rfl (by intro b h; cases h) rfl
  | write r => exact fin _ _ rfl (by intro b h; cases h) rfl

theorem sent_cons {dev : Bool} {c : WCall} {cs : List WCall} (h : ∀ b, c ≠ .setDevice b) :
    sent dev (c :: cs) = (if dev then (WCall.request c).toList else []) ++ sent dev cs := by
  cases c <;> first | exact absurd rfl (h _) | rfl

theorem run_frames : ∀ (cs : List WCall) (w : Writer), w.builder = [] →
    ∃ w' out, w.run cs = some (w', out) ∧ Frames (sent w.hasDevice cs) out.flatten
  | [], w, _ => ⟨w, [], rfl, .nil⟩
  | c :: cs, w, hb => by
    obtain ⟨w1, o1, h1, hb1, h⟩ := call_frames w c hb
    obtain ⟨w2, o2, h2, f2⟩ := run_frames cs w1 hb1
    refine ⟨w2, o1 ++ o2, by simp [Writer.run, h1, h2], ?_⟩
    rcases h with ⟨b, e, hd, ho⟩ | ⟨e, hd, ho, hn⟩ | ⟨e, hd, hn, r, hr, hf⟩
    · subst e ho; rw [hd] at f2; exact f2
    · subst e ho; rw [sent_cons hn, hd]; rw [hd] at f2; exact f2
    · subst e; rw [sent_cons hn, hd, hr]; rw [hd] at f2
      simp only [if_true, Option.toList, List.cons_append, List.nil_append, List.flatten_append]
      exact .cons _ _ _ _ hf f2

/-- C49: whatever calls are made on a new writer, what it writes is exactly the sequence of the frames of the requests made
while a device was set, each depending on its own request only. -/
theorem C49_framing (cs : List WCall) :
    ∃ w out, Writer.run {} cs = some (w, out) ∧ Frames (sent false cs) out.flatten :=
  run_frames cs {} rfl

theorem hexVal_digitChar (c : Byte) : ∀ d, hexVal c = some d → d < 10 → c = digitChar d := by
  have key : ∀ c : Byte, ∀ d < 10, hexVal c = some d → c = digitChar d := by
    apply byte_forall; decide +kernel
  exact fun d h1 h2 => key c d h2 h1

theorem decimal_unique_aux : ∀ (k : Nat) (s : Bytes) (n : Nat), s.length = k → s ≠ [] → s.foldl (fun acc c => do
      let a ← acc
      let d ← hexVal c
      if d < 10 then some (10 * a + d) else none) (some 0) = some n → (s.head? = some 48 → s = [48]) → s = digits 10 n
  | 0, s, n, hk, hs, _, _ => absurd (List.length_eq_zero_iff.1 hk) hs
  | k + 1, s, n, hk, hs, hf, hz => by
    obtain ⟨t, c, rfl⟩ : ∃ t c, s = t ++ [c] := ⟨s.dropLast, s.getLast hs, (List.dropLast_concat_getLast hs).symm⟩
    rw [List.foldl_append] at hf
    simp only [List.foldl_cons, List.foldl_nil] at hf
    simp only [bind] at hf
    rw [Option.bind_eq_some_iff] at hf
    obtain ⟨a, ha, hf⟩ := hf
    rw [Option.bind_eq_some_iff] at hf
    obtain ⟨d, hd, hf⟩ := hf
    split at hf
    · rename_i hlt
      simp only [Option.some.injEq] at hf
      have hc := hexVal_digitChar c d hd hlt
      by_cases ht : t = []
      · subst ht
        simp only [List.foldl_nil, Option.some.injEq] at ha
        subst ha
        have : n = d := by omega
        subst this
        rw [digits_lt hlt, hc]; rfl
      · have hz' : t.head? = some 48 → t = [48] := by
          intro h
          have : t ++ [c] = [48] := hz (by rw [List.head?_append, h]; rfl)
          cases t with
          | nil => exact absurd rfl ht
          | cons x t => simp at this
        have ih := decimal_unique_aux k t a (by simp at hk; exact hk) ht ha hz'
        have hpos : 0 < a := by
          rcases Nat.eq_zero_or_pos a with h0 | h0
          · subst h0
            rw [digits_lt (by omega)] at ih
            have : t ++ [c] = [48] := hz (by rw [ih]; rfl)
            rw [ih] at this; simp at this
          · exact h0
        rw [digits_ge (by omega) (by omega : 10 ≤ n), show n / 10 = a by omega, show n % 10 = d by omega, ← ih, hc]
    · cases hf

theorem decimal_unique (s : Bytes) (n : Nat) (h : readNat 10 s = some n) (hc : Canonical s) : s = digits 10 n := by
  unfold readNat at h
  split at h
  · cases h
  · rename_i hs
    refine decimal_unique_aux s.length s n rfl hs h ?_
    intro hz
    cases s with
    | nil => cases hz
    | cons c t =>
      simp only [List.head?_cons, Option.some.injEq] at hz
      subst hz
      cases t with
      | nil => rfl
      | cons d t => simp [Canonical] at hc

/-- The frame of a request is unique, so C49 determines every byte. -/
theorem C49_unique (r : OutRequest) (w w' : Bytes) (h : Frame r w) (h' : Frame r w') : w = w' := by
  obtain ⟨l, h1, h2, e⟩ := h
  obtain ⟨l', h1', h2', e'⟩ := h'
  rw [e, e', decimal_unique l _ h1 h2, decimal_unique l' _ h1' h2']

/-! ### C10 -/

/-- The head a frame renders. -/
def frameHead (r : OutRequest) (p q len : Bytes) : ReqHead where
  method := r.method
  target := .origin p (if q = [] then none else some q)
  fragment := none
  major := b!"1"
  minor := b!"1"
  headers := (r.headers.map fun h => ⟨h.name, 1, h.value⟩) ++ (if r.data = [] then [] else [⟨b!"Content-Length", 1, len⟩])


theorem frame_render (r : OutRequest) (p q len : Bytes) (hp : OriginForm r.path p q) :
    (frameHead r p q len).render = r.method ++ b!" " ++ r.path ++ b!" HTTP/1.1\r\n" ++ (r.headers.map lineOf).flatten ++
      (if r.data = [] then [] else b!"Content-Length: " ++ len ++ b!"\r\n") ++ b!"\r\n" := by
  have hl : ((r.headers.map fun h => (⟨h.name, 1, h.value⟩ : HeaderLine)).map HeaderLine.render).flatten = (r.headers.map lineOf).flatten := by
    rw [List.map_map]
    congr 1
    apply List.map_congr_left
    intro h _
    simp [HeaderLine.render, lineOf]
  have ht : (frameHead r p q len).target.uri = r.path := by
    rcases hp.2 with ⟨h1, h2⟩ | ⟨h1, _, h2⟩
    · simp [frameHead, h1, Target.uri, h2]
    · simp [frameHead, h1, Target.uri, h2]
  unfold ReqHead.render
  rw [ht]
  have hh : ((frameHead r p q len).headers.map HeaderLine.render).flatten = (r.headers.map lineOf).flatten ++
      (if r.data = [] then [] else b!"Content-Length: " ++ len ++ b!"\r\n") := by
    simp only [frameHead, List.map_append, List.flatten_append, hl]
    congr 1
    split <;> simp [HeaderLine.render]
  rw [hh]
  simp [frameHead, fragText, ReqHead.version]

theorem frame_acceptable (r : OutRequest) (hw : Writable r) (p q : Bytes) (hp : OriginForm r.path p q) :
    Acceptable (frameHead r p q (digits 10 r.data.length)) r.data.length := by
  have hd := digits_isDigit r.data.length
  have hdd : ∀ b ∈ digits 10 r.data.length, b ≠ 13 ∧ b ≠ 32 := by
    intro b hb
    have := hd b hb
    constructor <;> intro e <;> subst e <;> revert this <;> decide
  refine ⟨?_, ?_, ?_, ?_⟩
  · refine ⟨⟨hw.method.1, hw.method.2.1⟩, hw.method.2.2, ?_, ?_, ?_, ?_, ?_⟩
    · refine ⟨hp.1, ?_⟩
      intro q' hq'
      rcases hp.2 with ⟨h1, h2⟩ | ⟨h1, h3, h2⟩
      · rw [if_pos h1] at hq'; cases hq'
      · rw [if_neg h1] at hq'; cases hq'; exact h3
    · intro f hf; cases hf
    · exact show b!"1" ≠ [] ∧ ∀ b ∈ b!"1", Digit b from ⟨by decide, by simp [Digit, oneOf, digitA]⟩
    · exact show b!"1" ≠ [] ∧ ∀ b ∈ b!"1", Digit b from ⟨by decide, by simp [Digit, oneOf, digitA]⟩
    · intro h hh
      simp only [frameHead, List.mem_append, List.mem_map] at hh
      rcases hh with ⟨x, hx, rfl⟩ | hh
      · exact hw.headers x hx
      · split at hh
        · cases hh
        · simp only [List.mem_cons, List.not_mem_nil, or_false] at hh
          subst hh
          refine ⟨by simp, show ∀ b ∈ b!"Content-Length", TokenChar b by decide, ?_, ?_⟩
          · intro hm; exact (hdd 13 hm).1 rfl
          · intro hm
            have := List.mem_of_mem_head? hm
            exact (hdd 32 this).2 rfl
  · have hf : Frame r ((frameHead r p q (digits 10 r.data.length)).render ++ r.data) := by
      refine ⟨_, readNat_digits 10 (by omega) (by omega) _, canonical_digits 10 (by omega) (by omega) _, ?_⟩
      rw [frame_render r p q _ hp]
    have := hw.short _ hf
    simp at this; omega
  · unfold announcedLength
    by_cases he : r.data = []
    · have : (frameHead r p q (digits 10 r.data.length)).headers.filter (fun l => decide (SameCI l.name b!"content-length")) = [] := by
        rw [List.filter_eq_nil_iff]
        intro l hl
        simp only [frameHead, he, if_true, List.append_nil, List.mem_map] at hl
        obtain ⟨x, hx, rfl⟩ := hl
        simpa using hw.length he x hx
      rw [this, he]; rfl
    · have : ((frameHead r p q (digits 10 r.data.length)).headers.filter (fun l => decide (SameCI l.name b!"content-length"))).getLast? =
          some ⟨b!"Content-Length", 1, digits 10 r.data.length⟩ := by
        simp only [frameHead, he, if_false, List.filter_append]
        rw [show [(⟨b!"Content-Length", 1, digits 10 r.data.length⟩ : HeaderLine)].filter (fun l => decide (SameCI l.name b!"content-length")) =
          [⟨b!"Content-Length", 1, digits 10 r.data.length⟩] from List.filter_cons_of_pos (show decide (SameCI b!"Content-Length" b!"content-length") = true by decide)]
        simp
      rw [this]
      exact qtToInt_digits _ (by have := hw.content; omega)
  · have := hw.content
    unfold contentLimit; omega

theorem frame_received (r : OutRequest) (p q : Bytes) (hp : OriginForm r.path p q) :
    Received r ((frameHead r p q (digits 10 r.data.length)).shown r.data) := by
  have hs : (frameHead r p q (digits 10 r.data.length)).shown r.data = (frameHead r p q (digits 10 r.data.length)).view r.data := by
    unfold ReqHead.shown
    split
    · rename_i h
      simp only [frameHead, Target.origin.injEq] at h
      split at h
      · cases h.2
      · rename_i hq; cases h.2; exact absurd rfl hq
    · rfl
  rw [hs]
  have ht : (frameHead r p q (digits 10 r.data.length)).target.uri = r.path := by
    rcases hp.2 with ⟨h1, h2⟩ | ⟨h1, _, h2⟩
    · simp [frameHead, h1, Target.uri, h2]
    · simp [frameHead, h1, Target.uri, h2]
  have hq : (frameHead r p q (digits 10 r.data.length)).target.query = q := by
    simp only [frameHead]
    split
    · rename_i h; simp [Target.query, h]
    · simp [Target.query]
  refine ⟨rfl, ht, rfl, rfl, rfl, ?_, digits 10 r.data.length, readNat_digits 10 (by omega) (by omega) _, ?_⟩
  · simp only [ReqHead.view, hq]; exact hp
  · simp only [ReqHead.view, frameHead, List.map_append, List.map_map]
    congr 1
    · exact (List.map_congr_left (fun h _ => rfl)).trans (List.map_id _)
    · split <;> rfl

theorem frames_requests {rs : List OutRequest} {ws : Bytes} (h : Frames rs ws) (hw : ∀ r ∈ rs, Writable r) :
    ∃ reqs, Requests ws reqs [] ∧ reqs.length = rs.length ∧
      ∀ (i : Nat) (r : OutRequest) (v : ReqView), rs[i]? = some r → (shownAll reqs)[i]? = some v → Received r v := by
  induction h with
  | nil => exact ⟨[], .nil _, rfl, fun i r v h => by simp at h⟩
  | cons r rs w ws hf _ ih =>
    obtain ⟨reqs, h1, h2, h3⟩ := ih fun r hr => hw r (by simp [hr])
    have hwr := hw r (by simp)
    obtain ⟨p, q, hp⟩ := hwr.path
    have ha := frame_acceptable r hwr p q hp
    obtain ⟨len, hl1, hl2, e⟩ := hf
    rw [decimal_unique len _ hl1 hl2, ← frame_render r p q _ hp] at e
    refine ⟨(frameHead r p q (digits 10 r.data.length), r.data) :: reqs, ?_, by simp [h2], ?_⟩
    · rw [e]; exact .cons _ _ _ _ _ ha h1
    · intro i r' v hi hv
      cases i with
      | zero => simp [shownAll] at hi hv; subst hi hv; exact frame_received r p q hp
      | succ i => exact h3 i r' v (by simpa using hi) (by simpa [shownAll] using hv)

theorem not_complete_nil : ¬ Complete [] := by
  rintro ⟨h, c, rest, e, -⟩
  have := congrArg List.length e
  simp [ReqHead.render] at this

/-- C10: whatever writable requests are written with an `HttpRequestWriter`, an `HttpConnection` that has received these bytes, in
any segmentation, and waits for more has handed out exactly these requests, each with the same method, uri, headers
(plus the generated `Content-Length`) and content; nothing was refused. -/
theorem C10_agree (cs : List WCall) (w : Writer) (out : List Bytes) (hr : Writer.run {} cs = some (w, out))
    (hw : ∀ r ∈ sent false cs, Writable r)
    (s : Conf) (hs : Reach Proper s) (hwait : Waiting s) (he : received (epoch s.c.log) = out.flatten) :
    (readys (epoch s.c.log)).length = (sent false cs).length ∧
    (∀ (i : Nat) (r : OutRequest) (v : ReqView), (sent false cs)[i]? = some r → (readys (epoch s.c.log))[i]? = some v → Received r v) ∧
    ∀ code, Ev.errorReply code ∉ epoch s.c.log := by
  obtain ⟨w', out', h1, h2⟩ := C49_framing cs
  rw [hr] at h1; cases h1
  obtain ⟨reqs, h3, h4, h5⟩ := frames_requests h2 hw
  rw [← he] at h3
  rw [C13_exactly s hs hwait reqs [] h3 not_complete_nil]
  refine ⟨by simpa [shownAll] using h4, h5, ?_⟩
  exact (C13_nothing_held_back s hs hwait reqs [] h3).2

/-- The hypotheses of C10 are met: a POST with content and a GET with a query string, received in one piece. -/
def twoCalls : List WCall := [.setDevice true, .post b!"/upload" [⟨b!"Host", b!"example.org"⟩] b!"hello", .get b!"/a%20b?x=1" []]

theorem writable_intro (r : OutRequest) (p q : Bytes) (hp : OriginForm r.path p q) (hm : 1 ≤ r.method.length ∧ r.method.length ≤ 20 ∧ ∀ b ∈ r.method, MethodChar b)
    (hh : ∀ h ∈ r.headers, h.name ≠ [] ∧ (∀ b ∈ h.name, TokenChar b) ∧ 13 ∉ h.value ∧ h.value.head? ≠ some 32)
    (hl : ∀ h ∈ r.headers, ¬ SameCI h.name b!"content-length") (hc : r.data.length ≤ 1000)
    (hs : ((frameHead r p q (digits 10 r.data.length)).render).length ≤ headLimit) : Writable r := by
  refine ⟨hm, ⟨p, q, hp⟩, hh, by omega, fun _ => hl, ?_⟩
  rintro w ⟨len, h1, h2, e⟩
  rw [e, decimal_unique len _ h1 h2, ← frame_render r p q _ hp]
  simp; omega

example : (∀ r ∈ sent false twoCalls, Writable r) ∧
    ∃ w out s, Writer.run {} twoCalls = some (w, out) ∧ Reach Proper s ∧ Waiting s ∧ received (epoch s.c.log) = out.flatten := by
  constructor
  · intro r hr
    simp only [twoCalls, sent, WCall.request, Option.toList, if_true, List.cons_append, List.nil_append, List.append_nil, List.mem_cons,
      List.not_mem_nil, or_false] at hr
    rcases hr with rfl | rfl
    · refine writable_intro _ b!"/upload" [] ⟨⟨b!"upload", rfl, ?_⟩, .inl ⟨rfl, rfl⟩⟩ ?_ ?_ ?_ (by simp) (by decide +kernel)
      · repeat (first | exact .nil | refine .plain _ _ (by unfold PathChar UriChar; decide) ?_)
      · exact ⟨by simp, by simp, by simp [MethodChar, oneOf, upperA, digitA]⟩
      · simp only [List.mem_cons, List.not_mem_nil, or_false, forall_eq]
        exact ⟨by simp, by rintro b (rfl | rfl | rfl | rfl) <;> decide, by simp, by simp⟩
      · simp only [List.mem_cons, List.not_mem_nil, or_false, forall_eq]; decide
    · refine writable_intro _ b!"/a%20b" b!"x=1" ⟨⟨b!"a%20b", rfl, ?_⟩, .inr ⟨by simp, ?_, rfl⟩⟩ ?_ (by intro h hh; cases hh) (by intro h hh; cases hh) (by simp) (by decide +kernel)
      · refine .plain _ _ (by unfold PathChar UriChar; decide) (.esc _ _ _ (by simp [HexDigit, oneOf, hexA]) (by simp [HexDigit, oneOf, hexA]) ?_)
        repeat (first | exact .nil | refine .plain _ _ (by unfold PathChar UriChar; decide) ?_)
      · repeat (first | exact .nil | refine .plain _ _ (by unfold UriChar; decide) ?_)
      · exact ⟨by simp, by simp, by simp [MethodChar, oneOf, upperA, digitA]⟩
  · let wire := b!"POST /upload HTTP/1.1\r\nHost: example.org\r\nContent-Length: 5\r\n\r\nhelloGET /a%20b?x=1 HTTP/1.1\r\n\r\n"
    have hw : ∃ p, Writer.run {} twoCalls = some p ∧ p.2.flatten = wire := by
      have : (match Writer.run {} twoCalls with | some p => decide (p.2.flatten = wire) | none => false) = true := by decide +kernel
      split at this
      · rename_i p hp; exact ⟨p, hp, by simpa using this⟩
      · cases this
    obtain ⟨⟨w, out⟩, h1, h2⟩ := hw
    obtain ⟨s, h3, h4⟩ := exists_of_endsIn (allowed := Proper)
      (p := fun s => s.stack == [] && s.c.fault == none && unread s.c == [] && s.c.st == .receivingHeaders && received (epoch s.c.log) == wire)
      (ls := [.init, .recv wire, .call .processInput] ++ taus 4 ++ [.call (.writeResponse 204 [] b!"")] ++ taus 4 ++ [.ret] ++ taus 2 ++ [.ret] ++
        taus 4 ++ [.call (.writeResponse 204 [] b!"")] ++ taus 4 ++ [.ret] ++ taus 2 ++ [.ret] ++ taus 4 ++ [.ret] ++ taus 2 ++ [.ret]) (by decide +kernel)
    simp only [Bool.and_eq_true, beq_iff_eq] at h4
    obtain ⟨⟨⟨⟨a1, a2⟩, a3⟩, a4⟩, a5⟩ := h4
    exact ⟨w, out, s, h1, h3, ⟨a1, a2, a3, .inl a4⟩, a5.trans h2.symm⟩

end Pillow.Props
