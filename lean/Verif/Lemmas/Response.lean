import Verif.Lemmas.RunsFacts
import Verif.Spec.Response
import Verif.Lemmas.Number
set_option linter.unusedSimpArgs false
set_option linter.unusedVariables false
/-!
# What happens after a response head
-/
namespace Pillow
open Spec

variable {lo : Bool}

theorem contentOf_snoc (es : List Ev) (e : Ev) : contentOf (es ++ [e]) = contentOf es ++ Ev.content e := by simp [contentOf]
theorem contentOf_cons (es : List Ev) (e : Ev) : contentOf (e :: es) = Ev.content e ++ contentOf es := by simp [contentOf]
theorem wireOf_snoc (es : List Ev) (e : Ev) : wireOf (es ++ [e]) = wireOf es ++ e.wire := by simp [wireOf]
theorem wireOf_cons (es : List Ev) (e : Ev) : wireOf (e :: es) = e.wire ++ wireOf es := by simp [wireOf]

/-- The phase right after the head. -/
def Spec.Phase.begin (r : ReqView) (h : RespHead) : Phase := if h.len = 0 ∨ r.method = b!"HEAD" then .ended r h else .sending r h 0

/-- Path with the last event split off. -/
theorem Path.unsnoc {p q : Phase} {es : List Ev} {e : Ev} (h : Path lo p (es ++ [e]) q) : ∃ m, Path lo p es m ∧ Next lo m e q := by
  obtain ⟨m, h1, h2⟩ := h.append
  cases h2 with
  | cons _ _ _ _ _ n k => cases k; exact ⟨m, h1, n⟩

theorem list_snoc_ind {α : Type} {P : List α → Prop} (h0 : P []) (h1 : ∀ l a, P l → P (l ++ [a])) (l : List α) : P l := by
  rw [← List.reverse_reverse l]
  induction l.reverse with
  | nil => exact h0
  | cons a l ih => rw [List.reverse_cons]; exact h1 _ _ ih

/-- While a response is being written. -/
structure Writing (r : ReqView) (h : RespHead) (b : List Ev) : Prop where
  only : ∀ e ∈ b, (∃ bs, e = .recv bs) ∨ (∃ bs, e = .body bs ∧ h.chunked = false) ∨ (∃ bs, e = .chunk bs ∧ h.chunked = true) ∨
    (e = .lastChunk ∧ h.chunked = true)
  bound : 0 ≤ h.len → ((contentOf b).length : Int) ≤ h.len
  head : r.method = b!"HEAD" → ∀ e ∈ b, ∃ bs, e = .recv bs

theorem chunk_wire (bs : Bytes) (w c rest : Bytes) (hb : bs ≠ []) (h : Chunked w c rest) :
    Chunked ((Ev.chunk bs).wire ++ w) (bs ++ c) rest := by
  have : (Ev.chunk bs).wire = digits 16 bs.length ++ b!"\r\n" ++ bs ++ b!"\r\n" := by
    show chunkPrefix bs.length ++ bs ++ _ = _
    unfold chunkPrefix
    rw [appendNumber_eq _ _ _ _ (by omega)]
    simp [renderInt]
  rw [this]
  have := Chunked.chunk (digits 16 bs.length) bs w c rest (readNat_digits 16 (by decide) (by decide) _) hb h
  simpa using this

theorem lastChunk_wire (rest : Bytes) : Chunked (Ev.lastChunk.wire ++ rest) [] rest :=
  Chunked.last b!"0" rest (by decide)

theorem writing_path (r : ReqView) (h : RespHead) (b : List Ev) : ∀ {q : Phase},
    Path lo (.begin r h) b q → (∀ e ∈ b, e ≠ .completed ∧ ∀ f u, e ≠ .closed f u) →
    Writing r h b ∧
    ((q = .sending r h (contentOf b).length ∧ h.len ≠ 0 ∧ r.method ≠ b!"HEAD" ∧ (0 < h.len → ((contentOf b).length : Int) < h.len) ∧
        (h.chunked = true → ∀ w c rest, Chunked w c rest → Chunked (wireOf b ++ w) (contentOf b ++ c) rest) ∧ .lastChunk ∉ b) ∨
     (q = .ended r h ∧ (r.method = b!"HEAD" ∨ (h.len = (contentOf b).length) ∨
       (h.chunked = true ∧ ∀ rest, Chunked (wireOf b ++ rest) (contentOf b) rest)))) := by
  induction b using list_snoc_ind with
  | h0 =>
    intro q hp _
    refine ⟨⟨by simp, by simp [contentOf], by simp⟩, ?_⟩
    cases hp
    unfold Phase.begin
    split
    · rename_i hh
      right
      refine ⟨rfl, ?_⟩
      rcases hh with hh | hh
      · exact .inr (.inl (by simpa [contentOf] using hh))
      · exact .inl hh
    · rename_i hh
      simp only [not_or] at hh
      left
      exact ⟨rfl, hh.1, hh.2, by simp [contentOf], fun _ w c rest hw => by simpa [contentOf, wireOf] using hw, by simp⟩
  | h1 b e ih =>
    intro q hp hb
    obtain ⟨m, hm, hn⟩ := hp.unsnoc
    obtain ⟨hw, hs⟩ := ih hm (fun e he => hb e (by simp [he]))
    obtain ⟨he1, he2⟩ := hb e (by simp)
    rcases hs with ⟨rfl, s1, s2, s3, s4, s5⟩ | ⟨rfl, s1⟩
    · cases hn with
      | recv p bs =>
        refine ⟨⟨?_, by rw [contentOf_snoc]; simpa [Ev.content] using hw.bound, ?_⟩, .inl ?_⟩
        · intro e he
          rcases List.mem_append.1 he with he | he
          · exact hw.only e he
          · simp at he; subst he; exact .inl ⟨bs, rfl⟩
        · intro hh; exact absurd hh s2
        · rw [contentOf_snoc, wireOf_snoc]
          simp only [Ev.content, List.append_nil, true_and]
          refine ⟨s1, s2, s3, fun hc w c rest hw' => ?_, by simp [s5]⟩
          simpa [Ev.wire] using s4 hc w c rest hw'
      | body r' h' n' bs h1 h2 h3 h4 h5 =>
        refine ⟨⟨?_, ?_, ?_⟩, ?_⟩
        · intro e he
          rcases List.mem_append.1 he with he | he
          · exact hw.only e he
          · simp at he; subst he; exact .inr (.inl ⟨bs, rfl, h2⟩)
        · intro h0
          rw [contentOf_snoc]; simp only [Ev.content, List.length_append]
          have := h5 (by omega)
          omega
        · intro hh; exact absurd hh s2
        · rw [contentOf_snoc, wireOf_snoc]
          simp only [Ev.content, List.length_append]
          split
          · rename_i hlen
            exact .inr ⟨rfl, .inr (.inl (by omega))⟩
          · rename_i hlen
            refine .inl ⟨rfl, s1, s2, ?_, fun hc => ?_, by simp [s5]⟩
            · intro h0; have := h5 h0; omega
            · rw [h2] at hc; cases hc
      | chunk r' h' n' bs h1 h2 h3 h4 =>
        refine ⟨⟨?_, ?_, ?_⟩, .inl ?_⟩
        · intro e he
          rcases List.mem_append.1 he with he | he
          · exact hw.only e he
          · simp at he; subst he; exact .inr (.inr (.inl ⟨bs, rfl, h2⟩))
        · intro h0; omega
        · intro hh; exact absurd hh s2
        · rw [contentOf_snoc, wireOf_snoc]
          simp only [Ev.content, List.length_append, true_and]
          refine ⟨s1, s2, by omega, fun hc w c rest hw' => ?_, by simp [s5]⟩
          have := s4 hc _ _ _ (chunk_wire bs w c rest h1 hw')
          simpa using this
      | lastChunk r' h' n' h1 h2 =>
        refine ⟨⟨?_, by rw [contentOf_snoc]; simpa [Ev.content] using hw.bound, ?_⟩, .inr ?_⟩
        · intro e he
          rcases List.mem_append.1 he with he | he
          · exact hw.only e he
          · simp at he; subst he; exact .inr (.inr (.inr ⟨rfl, h1⟩))
        · intro hh; exact absurd hh s2
        · rw [contentOf_snoc, wireOf_snoc]
          refine ⟨rfl, .inr (.inr ⟨h1, fun rest => ?_⟩)⟩
          have := s4 h1 _ _ _ (lastChunk_wire rest)
          simpa [Ev.content] using this
      | completedOpen => exact absurd rfl he1
      | forced => exact absurd rfl (he2 _ _)
      | init p hp' => rcases hp' with hp' | hp' <;> cases hp'
    · cases hn with
      | recv p bs =>
        refine ⟨⟨?_, by rw [contentOf_snoc]; simpa [Ev.content] using hw.bound, ?_⟩, .inr ?_⟩
        · intro e he
          rcases List.mem_append.1 he with he | he
          · exact hw.only e he
          · simp at he; subst he; exact .inl ⟨bs, rfl⟩
        · intro hh e he
          rcases List.mem_append.1 he with he | he
          · exact hw.head hh e he
          · simp at he; subst he; exact ⟨bs, rfl⟩
        · rw [contentOf_snoc, wireOf_snoc]
          simp only [Ev.content, List.append_nil, true_and]
          rcases s1 with s1 | s1 | ⟨s1, s2⟩
          · exact .inl s1
          · exact .inr (.inl s1)
          · exact .inr (.inr ⟨s1, fun rest => by simpa [Ev.wire] using s2 rest⟩)
      | completed => exact absurd rfl he1
      | forced p u h1 h2 => exact absurd rfl (h2 _ _)
      | init p hp' => rcases hp' with hp' | hp' <;> cases hp'

/-- From a log: what follows a head. -/
theorem head_split {log a b : List Ev} {h : RespHead} {ph : Phase} (hr : Runs lo log ph) (e : log = a ++ .head h :: b) :
    ∃ r, (readys a).getLast? = some r ∧ HeadOf r h ∧ Runs lo a (.busy r) ∧ Path lo (.begin r h) b ph := by
  subst e
  obtain ⟨q, h1, h2⟩ := runs_split hr
  cases h2 with
  | cons _ q1 _ _ _ n1 h3 =>
  cases n1 with
  | head r h hh => exact ⟨r, req_last h1 r rfl, hh, h1, h3⟩

/-- Once the response is over, there is no content before the next head. -/
theorem no_content_path {p q : Phase} {es : List Ev} (h : Path lo p es q) (hp : ∀ r h n, p ≠ .sending r h n)
    (he : ∀ e ∈ es, ∀ h, e ≠ .head h) : (∀ e ∈ es, Ev.content e = [] ∧ e ≠ .lastChunk) := by
  refine path_events (fun p => ∀ r h n, p ≠ .sending r h n) (fun e => ∃ h, e = .head h) _ ?_ h hp ?_
  · intro p e q hn hp he
    cases hn with
    | init p hp' => simp [Ev.content]
    | recv p bs => exact ⟨hp, by simp [Ev.content]⟩
    | interim => simp [Ev.content]
    | ready i r' _ => simp [Ev.content]
    | error code => simp [Ev.content]
    | head r' hd _ => exact absurd ⟨_, rfl⟩ he
    | body r' hd n bs _ _ _ _ _ => exact absurd rfl (hp _ _ _)
    | chunk r' hd n bs _ _ _ _ => exact absurd rfl (hp _ _ _)
    | lastChunk r' hd n _ _ => exact absurd rfl (hp _ _ _)
    | completed r' hd => unfold Phase.after; split <;> simp [Ev.content]
    | completedOpen r' hd n _ _ _ => exact absurd rfl (hp _ _ _)
    | forced p u _ _ => simp [Ev.content]
    | drained => simp [Ev.content]
    | again _ => simp [Ev.content]
  · exact fun e he' ⟨h, k⟩ => he e he' h k

theorem contentOf_nil {es : List Ev} (h : ∀ e ∈ es, Ev.content e = []) : contentOf es = [] := by
  unfold contentOf
  induction es with
  | nil => rfl
  | cons e es ih => simp [h e (by simp)]; intro e' he'; exact h e' (by simp [he'])

/-- Splitting at the end of the response. -/
theorem response_end (b : List Ev) : (∀ e ∈ b, e ≠ .completed ∧ ∀ f u, e ≠ .closed f u) ∨
    ∃ b1 e b2, b = b1 ++ e :: b2 ∧ (e = .completed ∨ ∃ f u, e = .closed f u) ∧ (∀ e ∈ b1, e ≠ .completed ∧ ∀ f u, e ≠ .closed f u) := by
  induction b with
  | nil => simp
  | cons e b ih =>
    by_cases he : e = .completed ∨ ∃ f u, e = .closed f u
    · exact .inr ⟨[], e, b, rfl, he, by simp⟩
    · have he' : e ≠ .completed ∧ ∀ f u, e ≠ .closed f u := ⟨fun k => he (.inl k), fun f u k => he (.inr ⟨f, u, k⟩)⟩
      rcases ih with ih | ⟨b1, e', b2, rfl, h1, h2⟩
      · left; intro x hx
        rcases List.mem_cons.1 hx with rfl | hx
        · exact he'
        · exact ih x hx
      · right
        refine ⟨e :: b1, e', b2, rfl, h1, fun x hx => ?_⟩
        rcases List.mem_cons.1 hx with rfl | hx
        · exact he'
        · exact h2 x hx

/-- Once the response is over, nothing is completed before the next head. -/
theorem no_completed_path {p q : Phase} {es : List Ev} (h : Path lo p es q) (hp : (∀ r h n, p ≠ .sending r h n) ∧ ∀ r h, p ≠ .ended r h)
    (he : ∀ e ∈ es, ∀ h, e ≠ .head h) : ((∀ r h n, q ≠ .sending r h n) ∧ ∀ r h, q ≠ .ended r h) ∧ ∀ e ∈ es, e ≠ .completed := by
  have key : ∀ p e q, Next lo p e q → ((∀ r h n, p ≠ .sending r h n) ∧ ∀ r h, p ≠ .ended r h) → ¬ (∃ h, e = .head h) →
      ((∀ r h n, q ≠ .sending r h n) ∧ ∀ r h, q ≠ .ended r h) ∧ e ≠ .completed := by
    intro p e q hn hp he
    cases hn with
    | init p hp' => simp
    | recv p bs => exact ⟨hp, by simp⟩
    | interim => simp
    | ready i r' _ => simp
    | error code => simp
    | head r' hd _ => exact absurd ⟨_, rfl⟩ he
    | body r' hd n bs _ _ _ _ _ => exact absurd rfl (hp.1 _ _ _)
    | chunk r' hd n bs _ _ _ _ => exact absurd rfl (hp.1 _ _ _)
    | lastChunk r' hd n _ _ => exact absurd rfl (hp.1 _ _ _)
    | completed r' hd => exact absurd rfl (hp.2 _ _)
    | completedOpen r' hd n _ _ _ => exact absurd rfl (hp.1 _ _ _)
    | forced p u _ _ => simp
    | drained => simp
    | again _ => simp
  refine ⟨path_stays _ (fun e => ∃ h, e = .head h) (fun p e q hn hp he => (key p e q hn hp he).1) h hp (fun e he' ⟨h, k⟩ => he e he' h k),
    path_events _ (fun e => ∃ h, e = .head h) _ key h hp (fun e he' ⟨h, k⟩ => he e he' h k)⟩

theorem after_not {h : RespHead} : (∀ r h' n, Phase.after h ≠ .sending r h' n) ∧ ∀ r h', Phase.after h ≠ .ended r h' := by
  unfold Phase.after; split <;> simp

/-- What follows a head, up to the next head: the response, and possibly its end and things that have nothing to do
with it. -/
theorem response_shape {r : ReqView} {h : RespHead} {b : List Ev} {q : Phase} (hp : Path lo (.begin r h) b q)
    (hh : ∀ e ∈ b, ∀ h, e ≠ .head h) :
    (∀ e ∈ b, e ≠ .completed ∧ ∀ f u, e ≠ .closed f u) ∨
    ∃ b1 e b2 m m', b = b1 ++ e :: b2 ∧ (∀ e ∈ b1, e ≠ .completed ∧ ∀ f u, e ≠ .closed f u) ∧
      Path lo (.begin r h) b1 m ∧ Next lo m e m' ∧ Path lo m' b2 q ∧ contentOf b = contentOf b1 ∧
      ((e = .completed ∧ m' = .after h ∧ (m = .ended r h ∨ ∃ n, m = .sending r h n ∧ h.len < 0 ∧ h.chunked = false)) ∨
        (∃ u, e = .closed true u ∧ m' = .closed ∧ ∃ n, m = .sending r h n)) ∧
      (∀ e ∈ b2, Ev.content e = [] ∧ e ≠ .lastChunk ∧ e ≠ .completed) ∧
      ((∀ r h n, q ≠ .sending r h n) ∧ ∀ r h, q ≠ .ended r h) := by
  rcases response_end b with h1 | ⟨b1, e, b2, rfl, h1, h2⟩
  · exact .inl h1
  · right
    obtain ⟨m, p1, p2⟩ := hp.append
    cases p2 with
    | cons _ m' _ _ _ hn p3 =>
    obtain ⟨w, st⟩ := writing_path r h b1 p1 h2
    have hev : (e = .completed ∧ m' = .after h ∧ (m = .ended r h ∨ ∃ n, m = .sending r h n ∧ h.len < 0 ∧ h.chunked = false)) ∨
        (∃ u, e = .closed true u ∧ m' = .closed ∧ ∃ n, m = .sending r h n) := by
      rcases st with ⟨rfl, -⟩ | ⟨rfl, -⟩
      · rcases h1 with rfl | ⟨f, u, rfl⟩
        · cases hn with
          | completedOpen _ _ _ k1 k2 k3 => exact .inl ⟨rfl, rfl, .inr ⟨_, rfl, k1, k2⟩⟩
        · cases hn with
          | forced _ _ _ _ => exact .inr ⟨_, rfl, rfl, _, rfl⟩
      · rcases h1 with rfl | ⟨f, u, rfl⟩
        · cases hn with
          | completed _ _ => exact .inl ⟨rfl, rfl, .inl rfl⟩
        · cases hn with
          | forced _ _ _ k => exact absurd rfl (k _ _)
    have hm' : (∀ r h n, m' ≠ .sending r h n) ∧ ∀ r h, m' ≠ .ended r h := by
      rcases hev with ⟨-, rfl, -⟩ | ⟨u, -, rfl, -⟩
      · exact after_not
      · simp
    have hb2 : ∀ e ∈ b2, ∀ h, e ≠ .head h := fun e he => hh e (by simp [he])
    have hc := no_content_path p3 hm'.1 hb2
    obtain ⟨hq, hcm⟩ := no_completed_path p3 hm' hb2
    refine ⟨b1, e, b2, m, m', rfl, h2, p1, hn, p3, ?_, hev, fun e he => ⟨(hc e he).1, (hc e he).2, hcm e he⟩, hq⟩
    have : contentOf (b1 ++ e :: b2) = contentOf b1 ++ (Ev.content e ++ contentOf b2) := by simp [contentOf]
    rw [this, contentOf_nil (fun e he => (hc e he).1)]
    rcases h1 with rfl | ⟨f, u, rfl⟩ <;> simp [Ev.content]

/-- A completed response. -/
theorem response_completed {r : ReqView} {h : RespHead} {b d : List Ev} {q : Phase}
    (hp : Path lo (.begin r h) (b ++ .completed :: d) q) (hh : ∀ e ∈ b, ∀ h, e ≠ .head h) :
    (∀ e ∈ b, e ≠ .completed ∧ ∀ f u, e ≠ .closed f u) ∧ Path lo (.after h) d q ∧
    ∃ m, Path lo (.begin r h) b m ∧ (m = .ended r h ∨ ∃ n, m = .sending r h n ∧ h.len < 0 ∧ h.chunked = false) := by
  obtain ⟨m, p1, p2⟩ := hp.append
  cases p2 with
  | cons _ m' _ _ _ hn p3 =>
  have hm : ¬ ((∀ r h n, m ≠ .sending r h n) ∧ ∀ r h, m ≠ .ended r h) := by
    rintro ⟨k1, k2⟩
    cases hn
    · exact k2 _ _ rfl
    · exact k1 _ _ _ rfl
  rcases response_shape p1 hh with h1 | ⟨_, _, _, _, _, _, _, _, _, _, _, _, _, h2⟩
  · obtain ⟨-, st⟩ := writing_path r h b p1 h1
    rcases st with ⟨rfl, -⟩ | ⟨rfl, -⟩
    · cases hn with
      | completedOpen _ _ _ k1 k2 k3 => exact ⟨h1, p3, _, p1, .inr ⟨_, rfl, k1, k2⟩⟩
    · cases hn with
      | completed _ _ => exact ⟨h1, p3, _, p1, .inl rfl⟩
  · exact absurd h2 hm

theorem hexCR : ∀ (s t x y : Bytes) (n m : Nat), readNat 16 s = some n → readNat 16 t = some m →
      s ++ b!"\r\n" ++ x = t ++ b!"\r\n" ++ y → s = t ∧ x = y := by
    intro s t x y n m hs ht e
    have nocr : ∀ (s : Bytes) (acc : Option Nat) (n : Nat), s.foldl (fun acc c => do
        let a ← acc
        let d ← hexVal c
        if d < 16 then some (16 * a + d) else none) acc = some n → (13 : Byte) ∉ s := by
      intro s
      induction s with
      | nil => simp
      | cons c s ih =>
        intro acc n h
        rw [List.foldl_cons] at h
        have := ih _ _ h
        simp only [List.mem_cons, not_or]
        refine ⟨?_, this⟩
        rintro rfl
        have hnone : ∀ s : Bytes, s.foldl (fun acc c => do
            let a ← acc
            let d ← hexVal c
            if d < 16 then some (16 * a + d) else none) (none : Option Nat) = none := by
          intro s
          induction s with
          | nil => rfl
          | cons c s ih => rw [List.foldl_cons]; exact ih
        have : (do let a ← acc; let d ← hexVal 13; if d < 16 then some (16 * a + d) else none : Option Nat) = none := by
          cases acc <;> rfl
        rw [this, hnone] at h
        cases h
    have hs' : (13 : Byte) ∉ s := by
      unfold readNat at hs; split at hs
      · cases hs
      · exact nocr _ _ _ hs
    have ht' : (13 : Byte) ∉ t := by
      unfold readNat at ht; split at ht
      · cases ht
      · exact nocr _ _ _ ht
    clear hs ht nocr
    induction s generalizing t with
    | nil =>
      cases t with
      | nil => simpa using e
      | cons b t => simp at e; exact absurd (by simp [e.1]) ht'
    | cons a s ih =>
      cases t with
      | nil => simp at e; exact absurd (by simp [e.1]) hs'
      | cons b t =>
        simp only [List.cons_append, List.cons.injEq] at e
        obtain ⟨rfl, e⟩ := e
        obtain ⟨rfl, e'⟩ := ih t e (fun k => hs' (by simp [k])) (fun k => ht' (by simp [k]))
        exact ⟨rfl, e'⟩

theorem chunked_unique {w c r : Bytes} (h : Chunked w c r) : ∀ {c' r' : Bytes}, Chunked w c' r' → c = c' ∧ r = r' := by
  induction h with
  | last size rest h0 =>
    intro c' r' h'
    generalize hw : size ++ b!"\r\n" ++ b!"\r\n" ++ rest = w at h'
    cases h' with
    | last size' rest' h0' =>
      rw [List.append_assoc (size ++ _), List.append_assoc (size' ++ _)] at hw
      obtain ⟨rfl, e⟩ := hexCR _ _ _ _ _ _ h0 h0' hw
      exact ⟨rfl, by simpa using e⟩
    | chunk size' data w' c' _ h1 h2 h3 =>
      rw [List.append_assoc (size ++ _), List.append_assoc (size' ++ _), List.append_assoc (size' ++ _)] at hw
      obtain ⟨rfl, e⟩ := hexCR _ _ _ _ _ _ h0 h1 hw
      rw [h0] at h1
      cases data with
      | nil => exact absurd rfl h2
      | cons => simp at h1
  | chunk size data w c rest h1 h2 h3 ih =>
    intro c' r' h'
    generalize hw : size ++ b!"\r\n" ++ data ++ b!"\r\n" ++ w = w' at h'
    cases h' with
    | last size' rest' h0' =>
      rw [List.append_assoc (size ++ _), List.append_assoc (size ++ _), List.append_assoc (size' ++ _)] at hw
      obtain ⟨rfl, e⟩ := hexCR _ _ _ _ _ _ h1 h0' hw
      rw [h1] at h0'
      cases data with
      | nil => exact absurd rfl h2
      | cons => simp at h0'
    | chunk size' data' w' c' _ h1' h2' h3' =>
      rw [List.append_assoc (size ++ _), List.append_assoc (size ++ _), List.append_assoc (size' ++ _), List.append_assoc (size' ++ _)] at hw
      obtain ⟨rfl, e⟩ := hexCR _ _ _ _ _ _ h1 h1' hw
      rw [h1] at h1'
      simp only [Option.some.injEq] at h1'
      rw [List.append_assoc, List.append_assoc] at e
      obtain ⟨rfl, e'⟩ := List.append_inj e h1'
      have := List.append_cancel_left e'
      subst this
      obtain ⟨rfl, rfl⟩ := ih h3'
      exact ⟨rfl, rfl⟩

/-- The connection while foreign code is in control and a response is being written. -/
theorem writing_state {s : Conf} (h : Reach Proper s) (he : s.inEnv = true) (hf : s.c.fault = none) {a b : List Ev} {hd : RespHead}
    (e : s.c.log = a ++ .head hd :: b) (hb : ∀ e ∈ b, e ≠ .completed ∧ ∀ f u, e ≠ .closed f u) :
    (readys a).getLast? = some s.c.req ∧ s.c.st = .sendingContent ∧ Resp s.c hd (contentOf b).length ∧ hd.len ≠ 0 ∧
      s.c.req.method ≠ b!"HEAD" ∧ (0 < hd.len → ((contentOf b).length : Int) < hd.len) ∧ s.c.viewsValid = true ∧ s.c.dev.isSome = true ∧
      (hd.chunked = true → ∀ w c rest, Chunked w c rest → Chunked (wireOf b ++ w) (contentOf b ++ c) rest) ∧ .lastChunk ∉ b := by
  obtain ⟨ph, hr, hne, hph⟩ := reach_phase h he hf
  obtain ⟨r, h1, h2, h3, h4⟩ := head_split hr e
  obtain ⟨-, st⟩ := writing_path r hd b h4 hb
  rcases st with ⟨rfl, s1, s2, s3, s4, s5⟩ | ⟨rfl, -⟩
  · rcases hph with ⟨hset, hcore⟩ | ⟨k, -⟩
    · obtain ⟨k1, rfl, k2, k3, k4, k5, k6⟩ := settled_sending hset
      exact ⟨h1, k1, k2, k3, k4, k5, k6, hcore.dev (by rw [k1]; simp) (by rw [k1]; simp), s4, s5⟩
    · cases k
  · exact absurd rfl (hne _ _)

end Pillow
