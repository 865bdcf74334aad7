import Verif.Props.Exchange
import Verif.Spec.Link
set_option linter.unusedSimpArgs false
/-!
# What a connection writes, divided into responses
-/
namespace Pillow.Props.Pair
open Pillow Pillow.Spec Pillow.Spec.Pair Pillow.Props

/-! ## Cutting what is written where responses end -/

structure Cutting where
  last : Option ReqView := none
  count : Option (RespHead × Nat) := none
  full : List Bytes := []
  part : Bytes := []

def Cutting.add (t : Cutting) (bs : Bytes) : Cutting := { t with part := t.part ++ bs }
def Cutting.close (t : Cutting) : Cutting := { t with full := t.full ++ [t.part], part := [], count := none }

def Cutting.next (t : Cutting) : Ev → Cutting
  | .ready r => { t with last := some r }
  | .head h => if h.len = 0 ∨ t.last.map ReqView.method = some b!"HEAD" then (t.add h.bytes).close else { (t.add h.bytes) with count := some (h, 0) }
  | .body bs =>
    match t.count with
    | some (h, n) => if (n + bs.length : Int) = h.len then (t.add bs).close else { (t.add bs) with count := some (h, n + bs.length) }
    | none => t.add bs
  | .lastChunk => (t.add (Ev.wire .lastChunk)).close
  | e => t.add e.wire

def cut (es : List Ev) : Cutting := es.foldl Cutting.next {}
def serving (es : List Ev) : Serving := es.foldl Serving.next {}

theorem cut_snoc (es : List Ev) (e : Ev) : cut (es ++ [e]) = (cut es).next e := by simp [cut]
theorem serving_snoc (es : List Ev) (e : Ev) : serving (es ++ [e]) = (serving es).next e := by simp [serving]
theorem answers_eq (es : List Ev) : answers es = (serving es).all := rfl

theorem next_wire (t : Cutting) (e : Ev) : (t.next e).full.flatten ++ (t.next e).part = t.full.flatten ++ t.part ++ e.wire := by
  cases e <;> simp only [Cutting.next] <;> (try split) <;> (try split) <;> simp [Cutting.add, Cutting.close, Ev.wire]

theorem next_full (t : Cutting) (e : Ev) : t.full <+: (t.next e).full := by
  cases e <;> simp only [Cutting.next] <;> (try split) <;> (try split) <;> simp [Cutting.add, Cutting.close]

theorem cut_full (a b : List Ev) : (cut a).full <+: (cut (a ++ b)).full := by
  unfold cut
  rw [List.foldl_append]
  generalize a.foldl Cutting.next {} = t
  induction b generalizing t with
  | nil => exact List.prefix_refl _
  | cons e b ih => exact (next_full t e).trans (ih (t.next e))

theorem cut_wire (es : List Ev) : wireOf es = (cut es).full.flatten ++ (cut es).part := by
  unfold cut wireOf
  suffices h : ∀ (l : List Ev) (t : Cutting), (l.foldl Cutting.next t).full.flatten ++ (l.foldl Cutting.next t).part = t.full.flatten ++ t.part ++ (l.map Ev.wire).flatten by
    have := h es {}; simpa using this.symm
  intro l
  induction l with
  | nil => intro t; simp
  | cons e l ih => intro t; rw [List.foldl_cons, ih, next_wire]; simp

theorem lasts_snoc {last : Option ReqView} {es : List Ev} (e : Ev) (h : last = (readys es).getLast?) :
    (match e with | .ready r => some r | _ => last) = (readys (es ++ [e])).getLast? := by
  rw [readys_snoc]
  cases e <;> simp [Ev.request, h]

theorem cut_last (es : List Ev) : (cut es).last = (readys es).getLast? := by
  suffices h : ∀ (l pre : List Ev) (t : Cutting), t.last = (readys pre).getLast? → (l.foldl Cutting.next t).last = (readys (pre ++ l)).getLast? from h es [] {} rfl
  intro l
  induction l with
  | nil => intro pre t h; simpa using h
  | cons e l ih =>
    intro pre t h
    rw [show pre ++ e :: l = (pre ++ [e]) ++ l by simp, List.foldl_cons]
    refine ih _ _ ?_
    rw [← lasts_snoc e h]
    cases e <;> simp only [Cutting.next] <;> (try split) <;> (try split) <;> rfl

theorem serving_last (es : List Ev) : (serving es).last = (readys es).getLast? := by
  suffices h : ∀ (l pre : List Ev) (t : Serving), t.last = (readys pre).getLast? → (l.foldl Serving.next t).last = (readys (pre ++ l)).getLast? from h es [] {} rfl
  intro l
  induction l with
  | nil => intro pre t h; simpa using h
  | cons e l ih =>
    intro pre t h
    rw [show pre ++ e :: l = (pre ++ [e]) ++ l by simp, List.foldl_cons]
    refine ih _ _ ?_
    rw [← lasts_snoc e h]
    cases e <;> rfl

theorem completions_snoc (es : List Ev) (e : Ev) : completions (es ++ [e]) = completions es + if e = .completed then 1 else 0 := by
  unfold completions
  rw [List.filter_append, List.length_append]
  by_cases h : e = .completed <;> simp [h]

/-! ## Whole responses, and beginnings of responses -/

/-- What is known of a head. -/
structure HeadGood (env : ClientEnv) (r : ReqView) (h : RespHead) : Prop where
  grammar : ∃ H : RHead, H.Wf ∧ H.render = h.bytes ∧ num H.status = h.status.toNat ∧
      H.shown = sentHeaders r h.headers ((if h.len = -1 then none else some h.len.toNat).map (digits 10)) h.keepAlive h.chunked ∧
      (H.IsChunked ↔ h.chunked = true) ∧ H.announced = (if h.len = -1 then none else some h.len.toNat)
  final : h.status.toNat ≠ 100
  delimited : 0 ≤ h.len ∨ h.chunked = true
  chunked : h.chunked = true → h.len = -1
  plainly : ¬ Gzipped h.headers ∨ env.inflate = none

structure Good (env : ClientEnv) (es : List Ev) : Prop where
  noErr : ∀ code, .errorReply code ∉ es
  noInit : .init ∉ es
  heads : ∀ a h b r, es = a ++ .head h :: b → (readys a).getLast? = some r → HeadGood env r h
  chunks : ∀ bs, .chunk bs ∈ es → bs.length < 2147483648

theorem Good.left {env : ClientEnv} {a b : List Ev} (h : Good env (a ++ b)) : Good env a where
  noErr := fun code hc => h.noErr code (by simp [hc])
  noInit := fun hc => h.noInit (by simp [hc])
  heads := fun x hd y r e hr => h.heads x hd (y ++ b) r (by rw [e]; simp) hr
  chunks := fun bs hc => h.chunks bs (by simp [hc])

/-- `m`, after at most one interim response, is an answer to a request that is HEAD or not. -/
structure Fit (hd : Prop) (interims : List Response) (m : Response) : Prop where
  continues : ∀ i ∈ interims, Interim i
  few : interims.length ≤ 1
  get : ¬ hd → m.Wf
  head : hd → m.head.Wf ∧ m.wire = [] ∧ m.content = []
  final : num m.head.status ≠ 100

def rendered (interims : List Response) (m : Response) : Bytes := (interims.map Response.render).flatten ++ m.render

/-- A whole response. -/
def Full (env : ClientEnv) (a : Answer) (f : Bytes) : Prop :=
  ∃ interims m, Fit (a.request.method = b!"HEAD") interims m ∧ f = rendered interims m ∧ num m.head.status = a.head.status.toNat ∧ HeadersOf a.request a.head m.head.shown ∧ m.content = a.content ∧
    (¬ Gzipped m.head.shown ∨ env.inflate = none)

/-- The beginning of an answer: how it goes on is open. -/
def PartOf (env : ClientEnv) (a : Answer) (p : Bytes) : Prop :=
  ∀ b : UInt8, ∃ interims m more n, Fit (a.request.method = b!"HEAD") interims m ∧ p ++ more = rendered interims m ∧ more ≠ [] ∧ num m.head.status = a.head.status.toNat ∧
    HeadersOf a.request a.head m.head.shown ∧ m.content = a.content ++ List.replicate n b ∧ (¬ Gzipped m.head.shown ∨ env.inflate = none)

/-- Nothing, or an interim response. -/
def Lead (p : Bytes) : Prop := p = [] ∨ p = continueBytes

def dummy (st : Bytes) : Response := ⟨⟨b!"1", b!"1", st, b!" OK", [⟨b!"Content-Length", b!" ", b!"0"⟩]⟩, [], []⟩

theorem dummy_wf {st : Bytes} (h : st = b!"200" ∨ st = b!"404") : (dummy st).Wf where
  head := {
    major := ⟨1, (show readNat 10 b!"1" = some 1 by decide +kernel), by decide⟩
    minor := ⟨1, (show readNat 10 b!"1" = some 1 by decide +kernel), by decide⟩
    status := by
      rcases h with rfl | rfl
      · exact ⟨200, by decide +kernel, by decide⟩
      · exact ⟨404, by decide +kernel, by decide⟩
    reason := Or.inr ⟨b!"OK", rfl, text_dec _ (by decide +kernel)⟩
    headers := by
      intro x hx
      rw [List.mem_singleton.1 hx]
      refine ⟨⟨by decide, by decide +kernel⟩, by decide, text_dec _ (by decide +kernel), by decide, by decide⟩
    lengths := by
      have : (dummy st).head.lengths = [b!"0"] := by rcases h with rfl | rfl <;> decide +kernel
      rw [this]
      intro v hv
      rw [List.mem_singleton.1 hv]
      exact ⟨0, by decide +kernel, by decide⟩
    noUpgrade := by rcases h with rfl | rfl <;> decide +kernel
    size := by rcases h with rfl | rfl <;> decide +kernel }
  body := by rcases h with rfl | rfl <;> exact .sized [] (by decide +kernel) (by decide +kernel)

theorem dummy_fit (hd : Prop) {interims : List Response} (h1 : ∀ i ∈ interims, Interim i) (h2 : interims.length ≤ 1) {st : Bytes} (h : st = b!"200" ∨ st = b!"404") : Fit hd interims (dummy st) :=
  ⟨h1, h2, fun _ => dummy_wf h, fun _ => ⟨(dummy_wf h).head, rfl, rfl⟩, by rcases h with rfl | rfl <;> decide +kernel⟩

/-- The interim responses a lead stands for. -/
theorem lead_interims {p : Bytes} (h : Lead p) : ∃ interims : List Response, (∀ i ∈ interims, Interim i) ∧ interims.length ≤ 1 ∧ p = (interims.map Response.render).flatten := by
  rcases h with rfl | rfl
  · exact ⟨[], by simp, by simp, rfl⟩
  · exact ⟨[demoContinue], by intro i hi; rw [List.mem_singleton.1 hi]; exact demoContinue_interim, by simp, by decide +kernel⟩

theorem lead_part {p : Bytes} (h : Lead p) (hd : Prop) {st : Bytes} (hs : st = b!"200" ∨ st = b!"404") :
    ∃ interims more, Fit hd interims (dummy st) ∧ p ++ more = rendered interims (dummy st) ∧ more ≠ [] := by
  obtain ⟨is, h1, h2, h3⟩ := lead_interims h
  exact ⟨is, (dummy st).render, dummy_fit hd h1 h2 hs, by rw [h3]; rfl, by rcases hs with rfl | rfl <;> decide +kernel⟩

/-- Chunks written one after the other, which can be continued. -/
def Chunky (w c : Bytes) : Prop := ∀ w' c', ChunkedBody w' c' → ChunkedBody (w ++ w') (c ++ c')

theorem chunky_nil : Chunky [] [] := fun _ _ h => h

theorem chunky_snoc {w c : Bytes} (h : Chunky w c) {bs : Bytes} (h1 : bs ≠ []) (h2 : bs.length < 2147483648) : Chunky (w ++ Ev.wire (.chunk bs)) (c ++ bs) := by
  intro w' c' h'
  have hcw : (Ev.chunk bs).wire = digits 16 bs.length ++ b!"\r\n" ++ bs ++ b!"\r\n" := by
    show chunkPrefix bs.length ++ bs ++ _ = _
    unfold chunkPrefix
    rw [appendNumber_eq _ _ _ _ (by omega)]
    simp [renderInt]
  have hd := readNat_digits 16 (by decide) (by decide) bs.length
  have hsz : (digits 16 bs.length).length ≤ 8 := digits_len 7 _ (by omega)
  have := h _ _ (ChunkedBody.chunk (digits 16 bs.length) [] bs w' c' hd h1 (by omega) (Or.inl rfl) (by simp only [List.length_nil]; omega) h')
  rw [hcw]
  simpa using this

theorem chunky_last {w c : Bytes} (h : Chunky w c) : ChunkedBody (w ++ Ev.wire .lastChunk) c := by
  have := h _ _ (ChunkedBody.last b!"0" [] (by decide +kernel) (Or.inl rfl) (by decide))
  simpa [Ev.wire] using this

theorem head_shown {env : ClientEnv} {r : ReqView} {h : RespHead} (hg : HeadGood env r h) {H : RHead}
    (e : H.shown = sentHeaders r h.headers ((if h.len = -1 then none else some h.len.toNat).map (digits 10)) h.keepAlive h.chunked) :
    HeadersOf r h H.shown ∧ (¬ Gzipped H.shown ∨ env.inflate = none) := by
  have hd := readNat_digits 10 (by decide) (by decide) h.len.toNat
  have hcan := canonical_digits 10 (by decide) (by decide) h.len.toNat
  refine ⟨⟨_, hd, hcan, ?_⟩, hg.plainly.imp (fun hz hx => hz ?_) id⟩
  · rw [e]
    cases hc : h.chunked with
    | true => rw [if_pos (hg.chunked hc)]; rfl
    | false =>
      rcases hg.delimited with h0 | h0
      · rw [if_neg (by omega)]; rfl
      · rw [hc] at h0; cases h0
  · obtain ⟨x, hx, hx1, hx2⟩ := hx
    rw [e] at hx
    exact ⟨x, sent_gzip hx hx1, hx1, hx2⟩

/-- A response that ends with its head. -/
theorem full_head {env : ClientEnv} {r : ReqView} {h : RespHead} (hg : HeadGood env r h) (he : h.len = 0 ∨ r.method = b!"HEAD") {p : Bytes} (hp : Lead p) : Full env ⟨r, h, []⟩ (p ++ h.bytes) := by
  obtain ⟨is, i1, i2, i3⟩ := lead_interims hp
  obtain ⟨H, g1, g2, g3, g4, g5, g6⟩ := hg.grammar
  obtain ⟨k1, k2⟩ := head_shown hg g4
  refine ⟨is, ⟨H, [], []⟩, ⟨i1, i2, fun hn => ⟨g1, ?_⟩, fun _ => ⟨g1, rfl, rfl⟩, by rw [g3]; exact hg.final⟩, ?_, g3, k1, rfl, k2⟩
  · have he : h.len = 0 := he.resolve_right hn
    refine .sized [] (fun hc => ?_) (by rw [g6, if_neg (by omega), he]; rfl)
    have := hg.chunked (g5.1 hc); omega
  · rw [i3, ← g2]; simp [rendered, Response.render]

/-- A response of known length. -/
theorem full_body {env : ClientEnv} {r : ReqView} {h : RespHead} (hg : HeadGood env r h) (hc : h.chunked = false) (hm : r.method ≠ b!"HEAD") {p w : Bytes} (hp : Lead p) (hw : (w.length : Int) = h.len) :
    Full env ⟨r, h, w⟩ (p ++ h.bytes ++ w) := by
  obtain ⟨is, i1, i2, i3⟩ := lead_interims hp
  obtain ⟨H, g1, g2, g3, g4, g5, g6⟩ := hg.grammar
  obtain ⟨k1, k2⟩ := head_shown hg g4
  refine ⟨is, ⟨H, w, w⟩, ⟨i1, i2, fun hn => ⟨g1, ?_⟩, fun hn => absurd hn hm, by rw [g3]; exact hg.final⟩, ?_, g3, k1, rfl, k2⟩
  · refine .sized w (fun hc' => ?_) (by rw [g6, if_neg (by omega), ← hw]; simp)
    rw [g5.1 hc'] at hc; cases hc
  · rw [i3, ← g2]; simp [rendered, Response.render]

/-- A response in chunks. -/
theorem full_chunked {env : ClientEnv} {r : ReqView} {h : RespHead} (hg : HeadGood env r h) (hc : h.chunked = true) (hm : r.method ≠ b!"HEAD") {p w c : Bytes} (hp : Lead p) (hw : ChunkedBody w c) :
    Full env ⟨r, h, c⟩ (p ++ h.bytes ++ w) := by
  obtain ⟨is, i1, i2, i3⟩ := lead_interims hp
  obtain ⟨H, g1, g2, g3, g4, g5, g6⟩ := hg.grammar
  obtain ⟨k1, k2⟩ := head_shown hg g4
  refine ⟨is, ⟨H, w, c⟩, ⟨i1, i2, fun hn => ⟨g1, .chunked w c (g5.2 hc) hw⟩, fun hn => absurd hn hm, by rw [g3]; exact hg.final⟩, ?_, g3, k1, rfl, k2⟩
  rw [i3, ← g2]; simp [rendered, Response.render]

/-- A response that has been begun. -/
theorem part_sending {env : ClientEnv} {r : ReqView} {h : RespHead} (hg : HeadGood env r h) (hm : r.method ≠ b!"HEAD") {p w c : Bytes} (hp : Lead p)
    (h1 : h.chunked = false → w = c ∧ (w.length : Int) < h.len) (h2 : h.chunked = true → Chunky w c) : PartOf env ⟨r, h, c⟩ (p ++ h.bytes ++ w) := by
  intro b
  cases hc : h.chunked with
  | true =>
    obtain ⟨is, m, k1, k2, k3, k4, k5, k6⟩ := full_chunked hg hc hm hp (chunky_last (h2 hc))
    exact ⟨is, m, Ev.wire .lastChunk, 0, k1, by rw [← k2]; simp, by decide, k3, k4, by rw [k5]; simp, k6⟩
  | false =>
    obtain ⟨rfl, h3⟩ := h1 hc
    obtain ⟨is, m, k1, k2, k3, k4, k5, k6⟩ := full_body hg hc hm hp (w := w ++ List.replicate (h.len.toNat - w.length) b) (by simp; omega)
    refine ⟨is, m, List.replicate (h.len.toNat - w.length) b, h.len.toNat - w.length, k1, by rw [← k2]; simp, fun e => ?_, k3, k4, k5, k6⟩
    have := congrArg List.length e
    simp at this; omega

/-! ## The invariant -/

structure Base (env : ClientEnv) (es : List Ev) : Prop where
  frames : ∀ (i : Nat) (f : Bytes), (cut es).full[i]? = some f → ∃ a, (answers es)[i]? = some a ∧ (readys es)[i]? = some a.request ∧ Full env a f
  few : (cut es).full.length ≤ (readys es).length
  comps : completions es ≤ (cut es).full.length
  part : (Lead (cut es).part ∧ ((cut es).part ≠ [] → (cut es).full.length < (readys es).length ∨ ∃ a b, es = a ++ .interim :: b ∧ (readys a).length = (readys es).length)) ∨
    (∃ a, (readys es)[(cut es).full.length]? = some a.request ∧ (answers es)[(cut es).full.length]? = some a ∧ PartOf env a (cut es).part)

/-- Before the head of a response. -/
structure Calm (es : List Ev) : Prop where
  lead : Lead (cut es).part
  answers : (answers es).length = (cut es).full.length
  comps : completions es = (cut es).full.length

def At (env : ClientEnv) (es : List Ev) : Phase → Prop
  | .off => False
  | .recv i => Calm es ∧ (cut es).part = (if i then continueBytes else []) ∧ (readys es).length = (cut es).full.length ∧
      (i = true → ∃ a b, es = a ++ .interim :: b ∧ (readys a).length = (readys es).length)
  | .busy r => Calm es ∧ ∃ R, readys es = R ++ [r] ∧ R.length = (cut es).full.length
  | .sending r h n => ∃ p w c R, Lead p ∧ (cut es).part = p ++ h.bytes ++ w ∧ readys es = R ++ [r] ∧ R.length = (cut es).full.length ∧ (serving es).before.length = (cut es).full.length ∧
      (serving es).current = some ⟨r, h, c⟩ ∧ c.length = n ∧ HeadGood env r h ∧ r.method ≠ b!"HEAD" ∧ (h.chunked = false → w = c ∧ (cut es).count = some (h, n) ∧ (n : Int) < h.len) ∧
      (h.chunked = true → Chunky w c) ∧ completions es = (cut es).full.length
  | .ended _ _ => (cut es).part = [] ∧ (readys es).length = (cut es).full.length ∧ (answers es).length = (cut es).full.length ∧ completions es + 1 = (cut es).full.length
  | .flushing => (cut es).part = [] ∧ (readys es).length = (cut es).full.length
  | .closed => True

theorem base_nil (env : ClientEnv) : Base env [] ∧ At env [] (.recv false) :=
  ⟨⟨by simp [cut], by simp [cut], by simp [completions], .inl ⟨.inl rfl, by simp [cut]⟩⟩, ⟨.inl rfl, rfl, rfl⟩, rfl, rfl, by simp⟩

/-- Events that change nothing but the number of completed responses. -/
theorem base_same {env : ClientEnv} {es : List Ev} {e : Ev} (h : Base env es) (h1 : cut (es ++ [e]) = cut es) (h2 : answers (es ++ [e]) = answers es) (h3 : readys (es ++ [e]) = readys es)
    (h4 : completions (es ++ [e]) ≤ (cut es).full.length) : Base env (es ++ [e]) where
  frames := by rw [h1, h2, h3]; exact h.frames
  few := by rw [h1, h3]; exact h.few
  comps := by rw [h1]; exact h4
  part := by
    rw [h1, h2, h3]
    refine h.part.imp (fun ⟨k1, k2⟩ => ⟨k1, fun k => (k2 k).imp id ?_⟩) id
    rintro ⟨a, b, e1, e2⟩
    exact ⟨a, b ++ [e], by rw [e1]; simp, e2⟩

theorem answers_same {es : List Ev} {e : Ev} (h : serving (es ++ [e]) = serving es) : answers (es ++ [e]) = answers es := by rw [answers_eq, answers_eq, h]

theorem at_same {env : ClientEnv} {es : List Ev} {e : Ev} {ph : Phase} (h : At env es ph) (h1 : cut (es ++ [e]) = cut es) (h2 : serving (es ++ [e]) = serving es) (h3 : readys (es ++ [e]) = readys es)
    (h4 : completions (es ++ [e]) = completions es) : At env (es ++ [e]) ph := by
  have hc : Calm es → Calm (es ++ [e]) := fun ⟨k1, k2, k3⟩ => ⟨by rw [h1]; exact k1, by rw [h1, answers_same h2]; exact k2, by rw [h1, h4]; exact k3⟩
  cases ph with
  | off => exact h
  | recv i =>
    obtain ⟨k1, k2, k3, k4⟩ := h
    refine ⟨hc k1, by rw [h1]; exact k2, by rw [h1, h3]; exact k3, fun hi => ?_⟩
    obtain ⟨a, b, e1, e2⟩ := k4 hi
    exact ⟨a, b ++ [e], by rw [e1]; simp, by rw [h3]; exact e2⟩
  | busy r => exact ⟨hc h.1, by rw [h1, h3]; exact h.2⟩
  | sending r h n =>
    show ∃ p w c R, _
    rw [h1, h2, h3, h4]; assumption
  | ended r h => show _ ∧ _; rw [h1, h3, h4, answers_same h2]; assumption
  | flushing => show _ ∧ _; rw [h1, h3]; assumption
  | closed => trivial

theorem prefix_getElem? {α : Type} {a b : List α} {i : Nat} {x : α} (h : a[i]? = some x) (hp : a <+: b) : b[i]? = some x := by
  obtain ⟨t, rfl⟩ := hp
  rw [List.getElem?_append_left (List.getElem?_eq_some_iff.1 h).1]; exact h

/-- What has been written of a response remains. -/
theorem answers_next (t : Serving) (e : Ev) {n : Nat} {x : Answer} (h : t.all[n]? = some x) : ∃ y, (t.next e).all[n]? = some y ∧ y.request = x.request ∧ y.head = x.head ∧ x.content <+: y.content := by
  have more : ∀ bs : Bytes, ∃ y, ({ t with current := t.current.map fun a => { a with content := a.content ++ bs } } : Serving).all[n]? = some y ∧ y.request = x.request ∧ y.head = x.head ∧ x.content <+: y.content := by
    intro bs
    obtain ⟨l, b, c⟩ := t
    simp only [Serving.all] at h ⊢
    rcases Nat.lt_or_ge n b.length with hl | hl
    · rw [List.getElem?_append_left hl] at h ⊢
      exact ⟨x, h, rfl, rfl, List.prefix_refl _⟩
    · rw [List.getElem?_append_right hl] at h ⊢
      cases c with
      | none => simp at h
      | some a =>
        have h0 : n - b.length = 0 := by
          have := (List.getElem?_eq_some_iff.1 h).1; simp at this; omega
        rw [h0] at h ⊢
        simp at h
        subst h
        exact ⟨_, rfl, rfl, rfl, List.prefix_append _ _⟩
  have same : t.all <+: (t.next e).all → ∃ y, (t.next e).all[n]? = some y ∧ y.request = x.request ∧ y.head = x.head ∧ x.content <+: y.content :=
    fun hp => ⟨x, prefix_getElem? h hp, rfl, rfl, List.prefix_refl _⟩
  cases e with
  | head hd => exact same (List.prefix_append _ _)
  | body bs => exact more bs
  | chunk bs => exact more bs
  | _ => exact same (List.prefix_refl _)

theorem answers_grow (a b : List Ev) {n : Nat} {x : Answer} (h : (answers a)[n]? = some x) :
    ∃ y, (answers (a ++ b))[n]? = some y ∧ y.request = x.request ∧ y.head = x.head ∧ x.content <+: y.content := by
  unfold answers at h ⊢
  rw [List.foldl_append]
  generalize a.foldl Serving.next {} = t at h
  induction b generalizing t x with
  | nil => exact ⟨x, h, rfl, rfl, List.prefix_refl _⟩
  | cons e b ih =>
    obtain ⟨y, h1, h2, h3, h4⟩ := answers_next t e h
    obtain ⟨z, k1, k2, k3, k4⟩ := ih (t.next e) h1
    exact ⟨z, k1, k2.trans h2, k3.trans h3, h4.trans k4⟩

/-- A response is complete. -/
theorem base_close {env : ClientEnv} {es : List Ev} {e : Ev} (hb : Base env es) {f : Bytes} {a : Answer} {R : List ReqView} (h1 : (cut (es ++ [e])).full = (cut es).full ++ [f]) (h1' : (cut (es ++ [e])).part = [])
    (h2 : ∃ B, B.length = (cut es).full.length ∧ B <+: answers es ∧ answers (es ++ [e]) = B ++ [a]) (h3 : readys (es ++ [e]) = R ++ [a.request]) (h3' : readys es = R ++ [a.request]) (hR : R.length = (cut es).full.length)
    (h4 : completions (es ++ [e]) = (cut es).full.length) (hf : Full env a f) :
    Base env (es ++ [e]) ∧ (cut (es ++ [e])).part = [] ∧ (readys (es ++ [e])).length = (cut (es ++ [e])).full.length ∧ (answers (es ++ [e])).length = (cut (es ++ [e])).full.length ∧
      completions (es ++ [e]) + 1 = (cut (es ++ [e])).full.length := by
  obtain ⟨B, b1, b2, b3⟩ := h2
  refine ⟨⟨fun i x hx => ?_, by rw [h1, h3]; simp [hR], by rw [h1, h4]; simp, .inl ⟨.inl h1', fun k => absurd h1' k⟩⟩, h1', by rw [h3, h1]; simp [hR], by rw [b3, h1]; simp [b1], by rw [h1, h4]; simp⟩
  rw [h1] at hx
  by_cases hi : i < (cut es).full.length
  · rw [List.getElem?_append_left hi] at hx
    obtain ⟨y, y1, y2, y3⟩ := hb.frames i x hx
    refine ⟨y, ?_, by rw [h3, ← h3']; exact y2, y3⟩
    rw [b3, List.getElem?_append_left (by omega)]
    obtain ⟨t, ht⟩ := b2
    rw [← ht, List.getElem?_append_left (by omega)] at y1
    exact y1
  · rw [List.getElem?_append_right (by omega)] at hx
    have h0 : i - (cut es).full.length = 0 := by
      have := (List.getElem?_eq_some_iff.1 hx).1; simp at this; omega
    rw [h0] at hx
    simp at hx
    subst hx
    have hi : i = (cut es).full.length := by omega
    subst hi
    exact ⟨a, by rw [b3, ← b1]; simp, by rw [h3, ← hR]; simp, hf⟩

/-- A response goes on. -/
theorem base_open {env : ClientEnv} {es : List Ev} {e : Ev} (hb : Base env es) {r : ReqView} (h1 : (cut (es ++ [e])).full = (cut es).full)
    (h2 : ∀ (i : Nat) (a : Answer), i < (cut es).full.length → (answers es)[i]? = some a → (answers (es ++ [e]))[i]? = some a) {R : List ReqView} (h3 : readys (es ++ [e]) = R ++ [r]) (h3' : readys es = R ++ [r])
    (hR : R.length = (cut es).full.length) (h4 : completions (es ++ [e]) = (cut es).full.length) {a : Answer} (ha : a.request = r)
    (h5 : (answers (es ++ [e]))[(cut es).full.length]? = some a) (hp : PartOf env a (cut (es ++ [e])).part) : Base env (es ++ [e]) := by
  refine ⟨fun i x hx => ?_, by rw [h1, h3]; simp [hR], by rw [h1, h4]; exact Nat.le_refl _, .inr ⟨a, by rw [h1, h3, ← hR, ha]; simp, by rw [h1]; exact h5, hp⟩⟩
  rw [h1] at hx
  obtain ⟨y, y1, y2, y3⟩ := hb.frames i x hx
  exact ⟨y, h2 i y (List.getElem?_eq_some_iff.1 hx).1 y1, by rw [h3, ← h3']; exact y2, y3⟩

theorem base_step {env : ClientEnv} {es : List Ev} {e : Ev} {ph ph' : Phase} (hb : Base env es) (ha : At env es ph) (hn : Next true ph e ph') (hg : Good env (es ++ [e])) :
    Base env (es ++ [e]) ∧ At env (es ++ [e]) ph' := by
  have hcut := cut_snoc es e
  have hser := serving_snoc es e
  have hrd := readys_snoc es e
  have hcm := completions_snoc es e
  cases hn with
  | init => exact absurd (by simp) hg.noInit
  | error code => exact absurd (by simp) (hg.noErr code)
  | recv p bs =>
    have h1 : cut (es ++ [.recv bs]) = cut es := by rw [hcut]; simp [Cutting.next, Cutting.add, Ev.wire]
    have h2 : serving (es ++ [.recv bs]) = serving es := by rw [hser]; rfl
    have h3 : readys (es ++ [.recv bs]) = readys es := by rw [hrd]; simp [Ev.request]
    have h4 : completions (es ++ [.recv bs]) = completions es := by rw [hcm]; simp
    exact ⟨base_same hb h1 (answers_same h2) h3 (by rw [h4]; exact hb.comps), at_same ha h1 h2 h3 h4⟩
  | forced p u _ _ =>
    have h1 : cut (es ++ [.closed true u]) = cut es := by rw [hcut]; simp [Cutting.next, Cutting.add, Ev.wire]
    have h2 : serving (es ++ [.closed true u]) = serving es := by rw [hser]; rfl
    have h3 : readys (es ++ [.closed true u]) = readys es := by rw [hrd]; simp [Ev.request]
    exact ⟨base_same hb h1 (answers_same h2) h3 (by rw [hcm]; simpa using hb.comps), trivial⟩
  | drained =>
    have h1 : cut (es ++ [.closed false 0]) = cut es := by rw [hcut]; simp [Cutting.next, Cutting.add, Ev.wire]
    have h2 : serving (es ++ [.closed false 0]) = serving es := by rw [hser]; rfl
    have h3 : readys (es ++ [.closed false 0]) = readys es := by rw [hrd]; simp [Ev.request]
    exact ⟨base_same hb h1 (answers_same h2) h3 (by rw [hcm]; simpa using hb.comps), trivial⟩
  | again _ =>
    have h1 : cut (es ++ [.closed true 0]) = cut es := by rw [hcut]; simp [Cutting.next, Cutting.add, Ev.wire]
    have h2 : serving (es ++ [.closed true 0]) = serving es := by rw [hser]; rfl
    have h3 : readys (es ++ [.closed true 0]) = readys es := by rw [hrd]; simp [Ev.request]
    exact ⟨base_same hb h1 (answers_same h2) h3 (by rw [hcm]; simpa using hb.comps), trivial⟩
  | interim =>
    obtain ⟨c1, c2, c3, -⟩ := ha
    have h2 : serving (es ++ [.interim]) = serving es := by rw [hser]; rfl
    have h3 : readys (es ++ [.interim]) = readys es := by rw [hrd]; simp [Ev.request]
    have h4 : completions (es ++ [.interim]) = completions es := by rw [hcm]; simp
    have h5 : (cut (es ++ [.interim])).full = (cut es).full := by rw [hcut]; rfl
    have h6 : (cut (es ++ [.interim])).part = continueBytes := by
      rw [hcut]; show (cut es).part ++ continueBytes = _; rw [c2]; rfl
    have h7 : ∃ a b, es ++ [.interim] = a ++ .interim :: b ∧ (readys a).length = (readys (es ++ [.interim])).length := ⟨es, [], rfl, by rw [h3]⟩
    refine ⟨⟨?_, by rw [h5, h3]; exact hb.few, by rw [h5, h4]; exact hb.comps, .inl ⟨.inr h6, fun _ => .inr h7⟩⟩,
      ⟨.inr h6, by rw [answers_same h2, h5]; exact c1.answers, by rw [h4, h5]; exact c1.comps⟩, h6, by rw [h3, h5]; exact c3, fun _ => h7⟩
    rw [h5, answers_same h2, h3]; exact hb.frames
  | ready i r _ =>
    obtain ⟨c1, c2, c3, -⟩ := ha
    have h2 : answers (es ++ [.ready r]) = answers es := by rw [answers_eq, answers_eq, hser]; rfl
    have h3 : readys (es ++ [.ready r]) = readys es ++ [r] := by rw [hrd]; simp [Ev.request]
    have h4 : completions (es ++ [.ready r]) = completions es := by rw [hcm]; simp
    have h5 : (cut (es ++ [.ready r])).full = (cut es).full := by rw [hcut]; rfl
    have h6 : (cut (es ++ [.ready r])).part = (cut es).part := by rw [hcut]; rfl
    refine ⟨⟨fun i f hf => ?_, by rw [h5, h3]; simp [c3], by rw [h5, h4]; exact hb.comps, .inl ⟨by rw [h6]; exact c1.lead, fun _ => .inl (by rw [h5, h3]; simp [c3])⟩⟩,
      ⟨by rw [h6]; exact c1.lead, by rw [h2, h5]; exact c1.answers, by rw [h4, h5]; exact c1.comps⟩, readys es, h3, by rw [h5]; exact c3⟩
    rw [h5] at hf
    obtain ⟨y, y1, y2, y3⟩ := hb.frames i f hf
    exact ⟨y, by rw [h2]; exact y1, by rw [h3]; exact prefix_getElem? y2 (List.prefix_append _ _), y3⟩
  | head r h hh =>
    obtain ⟨c1, R, c2, c3⟩ := ha
    have hlast : (readys es).getLast? = some r := by rw [c2]; simp
    have hgood := hg.heads es h [] r rfl hlast
    have h3 : readys (es ++ [.head h]) = R ++ [r] := by rw [hrd, c2]; simp [Ev.request]
    have h4 : completions (es ++ [.head h]) = (cut es).full.length := by rw [hcm, c1.comps]; simp
    have h2a : (serving (es ++ [.head h])).before = answers es := by rw [hser]; rfl
    have h2b : (serving (es ++ [.head h])).current = some ⟨r, h, []⟩ := by
      rw [hser]; show (serving es).last.map _ = _; rw [serving_last, hlast]; rfl
    have h2 : answers (es ++ [.head h]) = answers es ++ [⟨r, h, []⟩] := by rw [answers_eq]; unfold Serving.all; rw [h2a, h2b]; rfl
    have hl : (cut es).last.map ReqView.method = some r.method := by rw [cut_last, hlast]; rfl
    have hcond : (h.len = 0 ∨ (cut es).last.map ReqView.method = some b!"HEAD") ↔ (h.len = 0 ∨ r.method = b!"HEAD") := by rw [hl]; simp
    by_cases he : h.len = 0 ∨ r.method = b!"HEAD"
    · rw [if_pos he]
      have h1 : cut (es ++ [.head h]) = ((cut es).add h.bytes).close := by rw [hcut]; simp only [Cutting.next]; rw [if_pos (hcond.2 he)]
      exact base_close hb (f := (cut es).part ++ h.bytes) (a := ⟨r, h, []⟩) (R := R) (by rw [h1]; rfl) (by rw [h1]; rfl) ⟨answers es, c1.answers, List.prefix_refl _, h2⟩ h3 c2 c3 h4 (full_head hgood he c1.lead)
    · rw [if_neg he]
      have h1 : cut (es ++ [.head h]) = { ((cut es).add h.bytes) with count := some (h, 0) } := by rw [hcut]; simp only [Cutting.next]; rw [if_neg (fun k => he (hcond.1 k))]
      have h5 : (cut (es ++ [.head h])).full = (cut es).full := by rw [h1]; rfl
      have h6 : (cut (es ++ [.head h])).part = (cut es).part ++ h.bytes ++ [] := by rw [h1]; simp [Cutting.add]
      have hlen : h.chunked = false → (0 : Int) < h.len := by
        intro hc
        rcases hgood.delimited with k | k
        · have := mt Or.inl he; omega
        · rw [hc] at k; cases k
      refine ⟨base_open hb h5 (fun i a _ hx => by rw [h2]; exact prefix_getElem? hx (List.prefix_append _ _)) h3 c2 c3 h4 (a := ⟨r, h, []⟩) rfl (by rw [h2, ← c1.answers]; simp) ?_, (cut es).part, [], [], R, c1.lead, h6, h3, by rw [h5]; exact c3, by rw [h2a, h5]; exact c1.answers,
        h2b, rfl, hgood, fun k => he (.inr k), fun hc => ⟨rfl, by rw [h1], hlen hc⟩, fun _ => chunky_nil, by rw [h4, h5]⟩
      rw [h6]
      exact part_sending hgood (fun k => he (.inr k)) c1.lead (fun hc => ⟨rfl, by simpa using hlen hc⟩) (fun _ => chunky_nil)
  | body r h n bs k1 k2 k3 k4 k5 =>
    obtain ⟨p, w, c, R, c1, c2, c3, c4, c5, c6, c7, c8, c9, c10, c11, c12⟩ := ha
    obtain ⟨d1, d2, d3⟩ := c10 k2
    subst d1
    have h3 : readys (es ++ [.body bs]) = R ++ [r] := by rw [hrd, c3]; simp [Ev.request]
    have h4 : completions (es ++ [.body bs]) = (cut es).full.length := by rw [hcm, c12]; simp
    have h2a : (serving (es ++ [.body bs])).before = (serving es).before := by rw [hser]; rfl
    have h2b : (serving (es ++ [.body bs])).current = some ⟨r, h, w ++ bs⟩ := by rw [hser]; show (serving es).current.map _ = _; rw [c6]; rfl
    have h2 : answers (es ++ [.body bs]) = (serving es).before ++ [⟨r, h, w ++ bs⟩] := by rw [answers_eq]; unfold Serving.all; rw [h2a, h2b]; rfl
    have hpre : (serving es).before <+: answers es := List.prefix_append _ _
    by_cases he : (n + bs.length : Int) = h.len
    · rw [if_pos he]
      have h1 : cut (es ++ [.body bs]) = ((cut es).add bs).close := by rw [hcut]; simp only [Cutting.next]; rw [d2]; simp only []; rw [if_pos he]
      refine base_close hb (f := (cut es).part ++ bs) (a := ⟨r, h, w ++ bs⟩) (R := R) (by rw [h1]; rfl) (by rw [h1]; rfl) ⟨(serving es).before, c5, hpre, h2⟩ h3 c3 c4 h4 ?_
      rw [c2, List.append_assoc]
      exact full_body c8 k2 c9 c1 (by simp [c7]; omega)
    · rw [if_neg he]
      have h1 : cut (es ++ [.body bs]) = { ((cut es).add bs) with count := some (h, n + bs.length) } := by rw [hcut]; simp only [Cutting.next]; rw [d2]; simp only []; rw [if_neg he]
      have h5 : (cut (es ++ [.body bs])).full = (cut es).full := by rw [h1]; rfl
      have h6 : (cut (es ++ [.body bs])).part = p ++ h.bytes ++ (w ++ bs) := by rw [h1]; simp [Cutting.add, c2]
      have hlt : ((n + bs.length : Nat) : Int) < h.len := by have := k5 (by omega); omega
      refine ⟨base_open hb h5 (fun i a hi hx => ?_) h3 c3 c4 h4 (a := ⟨r, h, w ++ bs⟩) rfl (by rw [h2, ← c5]; simp) ?_, p, w ++ bs, w ++ bs, R, c1, h6, h3, by rw [h5]; exact c4, by rw [h2a, h5]; exact c5, h2b, by simp [c7], c8, c9,
        fun _ => ⟨rfl, by rw [h1], hlt⟩, fun hc => (by rw [k2] at hc; cases hc), by rw [h4, h5]⟩
      · rw [h2]
        obtain ⟨t, ht⟩ := hpre
        rw [← ht, List.getElem?_append_left (by omega)] at hx
        rw [List.getElem?_append_left (by omega)]; exact hx
      · rw [h6]
        exact part_sending c8 c9 c1 (fun _ => ⟨rfl, by rw [List.length_append, c7]; exact hlt⟩) (fun hc => by rw [k2] at hc; cases hc)
  | chunk r h n bs k1 k2 k3 k4 =>
    obtain ⟨p, w, c, R, c1, c2, c3, c4, c5, c6, c7, c8, c9, c10, c11, c12⟩ := ha
    have h3 : readys (es ++ [.chunk bs]) = R ++ [r] := by rw [hrd, c3]; simp [Ev.request]
    have h4 : completions (es ++ [.chunk bs]) = (cut es).full.length := by rw [hcm, c12]; simp
    have h2a : (serving (es ++ [.chunk bs])).before = (serving es).before := by rw [hser]; rfl
    have h2b : (serving (es ++ [.chunk bs])).current = some ⟨r, h, c ++ bs⟩ := by rw [hser]; show (serving es).current.map _ = _; rw [c6]; rfl
    have h2 : answers (es ++ [.chunk bs]) = (serving es).before ++ [⟨r, h, c ++ bs⟩] := by rw [answers_eq]; unfold Serving.all; rw [h2a, h2b]; rfl
    have hpre : (serving es).before <+: answers es := List.prefix_append _ _
    have h1 : cut (es ++ [.chunk bs]) = (cut es).add (Ev.wire (.chunk bs)) := by rw [hcut]; rfl
    have h5 : (cut (es ++ [.chunk bs])).full = (cut es).full := by rw [h1]; rfl
    have h6 : (cut (es ++ [.chunk bs])).part = p ++ h.bytes ++ (w ++ Ev.wire (.chunk bs)) := by rw [h1]; simp [Cutting.add, c2]
    have hch : Chunky (w ++ Ev.wire (.chunk bs)) (c ++ bs) := chunky_snoc (c11 k2) k1 (hg.chunks bs (by simp))
    refine ⟨base_open hb h5 (fun i a hi hx => ?_) h3 c3 c4 h4 (a := ⟨r, h, c ++ bs⟩) rfl (by rw [h2, ← c5]; simp) ?_, p, _, c ++ bs, R, c1, h6, h3, by rw [h5]; exact c4, by rw [h2a, h5]; exact c5, h2b, by simp [c7], c8, c9,
      fun hc => (by rw [k2] at hc; cases hc), fun _ => hch, by rw [h4, h5]⟩
    · rw [h2]
      obtain ⟨t, ht⟩ := hpre
      rw [← ht, List.getElem?_append_left (by omega)] at hx
      rw [List.getElem?_append_left (by omega)]; exact hx
    · rw [h6]
      exact part_sending c8 c9 c1 (fun hc => by rw [k2] at hc; cases hc) (fun _ => hch)
  | lastChunk r h n k2 k3 =>
    obtain ⟨p, w, c, R, c1, c2, c3, c4, c5, c6, c7, c8, c9, c10, c11, c12⟩ := ha
    have h3 : readys (es ++ [.lastChunk]) = R ++ [r] := by rw [hrd, c3]; simp [Ev.request]
    have h4 : completions (es ++ [.lastChunk]) = (cut es).full.length := by rw [hcm, c12]; simp
    have h2 : answers (es ++ [.lastChunk]) = (serving es).before ++ [⟨r, h, c⟩] := by rw [answers_eq, hser]; show (serving es).before ++ (serving es).current.toList = _; rw [c6]; rfl
    have h1 : cut (es ++ [.lastChunk]) = ((cut es).add (Ev.wire .lastChunk)).close := by rw [hcut]; rfl
    refine base_close hb (f := (cut es).part ++ Ev.wire .lastChunk) (a := ⟨r, h, c⟩) (R := R) (by rw [h1]; rfl) (by rw [h1]; rfl) ⟨(serving es).before, c5, List.prefix_append _ _, h2⟩ h3 c3 c4 h4 ?_
    rw [c2, List.append_assoc]
    exact full_chunked c8 k2 c9 c1 (chunky_last (c11 k2))
  | completed r h =>
    obtain ⟨c1, c2, c3, c4⟩ := ha
    have h1 : cut (es ++ [.completed]) = cut es := by rw [hcut]; simp [Cutting.next, Cutting.add, Ev.wire]
    have h2 : serving (es ++ [.completed]) = serving es := by rw [hser]; rfl
    have h3 : readys (es ++ [.completed]) = readys es := by rw [hrd]; simp [Ev.request]
    have h4 : completions (es ++ [.completed]) = (cut es).full.length := by rw [hcm]; simpa using c4
    refine ⟨base_same hb h1 (answers_same h2) h3 (by rw [h4]; exact Nat.le_refl _), ?_⟩
    unfold Phase.after
    split
    · exact ⟨⟨.inl (by rw [h1]; exact c1), by rw [answers_same h2, h1]; exact c3, by rw [h4, h1]⟩, by rw [h1]; exact c1, by rw [h3, h1]; exact c2, by simp⟩
    · exact ⟨by rw [h1]; exact c1, by rw [h3, h1]; exact c2⟩
  | completedOpen r h n k1 k2 k3 =>
    obtain ⟨p, w, c, R, c1, c2, c3, c4, c5, c6, c7, c8, c9, c10, c11, c12⟩ := ha
    exfalso
    rcases c8.delimited with k | k
    · omega
    · rw [k2] at k; cases k

theorem base_path {env : ClientEnv} {ph ph' : Phase} {es : List Ev} (hp : Path true ph es ph') : ∀ {pre : List Ev}, Base env pre → At env pre ph → Good env (pre ++ es) → Base env (pre ++ es) := by
  induction hp with
  | nil p => intro pre hb _ _; simpa using hb
  | cons p q r e es hn hp ih =>
    intro pre hb ha hg
    rw [show pre ++ e :: es = (pre ++ [e]) ++ es by simp] at hg ⊢
    obtain ⟨h1, h2⟩ := base_step hb ha hn hg.left
    exact ih h1 h2 hg

end Pillow.Props.Pair
