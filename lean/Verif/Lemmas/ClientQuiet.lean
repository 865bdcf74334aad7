import Verif.Spec.ClientReply
import Verif.Lemmas.ClientFresh
import Verif.Lemmas.ParserSplit
/-!
# The client on well-formed responses: what the parser reports
-/
namespace Pillow
open Spec

/-- What the callbacks of the parser report to a client whose application is not looked at. -/
structure QData where
  d : RespData := {}
  sig : List CEv := []
  fin : Option (Nat × Headers) := none
  gz : Bool := false
  odd : Bool := false

def gzipped (hs : Headers) : Bool := hs.any (fun h => asciiEqualsCILower h.name b!"content-encoding" && asciiEqualsCILower h.value b!"gzip")

theorem gzipped_iff (hs : Headers) : gzipped hs = true ↔ Gzipped hs := by
  unfold gzipped Gzipped
  simp only [List.any_eq_true, Bool.and_eq_true]
  constructor <;> rintro ⟨h, h1, h2, h3⟩
  · exact ⟨h, h1, (asciiEqualsCILower_iff _ _ (by decide)).1 h2, (asciiEqualsCILower_iff _ _ (by decide)).1 h3⟩
  · exact ⟨h, h1, (asciiEqualsCILower_iff _ _ (by decide)).2 h2, (asciiEqualsCILower_iff _ _ (by decide)).2 h3⟩

def qBegin (t : QData) : QData :=
  { t with d := { t.d with headers := [], content := [], lastWasValue := false }, odd := t.odd || !t.d.content.isEmpty || t.gz }

def qF (bs : Bytes) (t : QData) : QData := { t with d := rF bs t.d }
def qV (bs : Bytes) (t : QData) : QData := { t with d := rV bs t.d }
def qB (bs : Bytes) (t : QData) : QData := { t with d := rB bs t.d, odd := t.odd || (!bs.isEmpty && t.sig.isEmpty) }

def qHead (env : ClientEnv) (status : Nat) (t : QData) : QData :=
  if status = 100 then { t with d := t.d.push }
  else { t with d := t.d.push, sig := t.sig ++ [.headersCompleted status t.d.push.headers], gz := env.inflate.isSome && gzipped t.d.push.headers, odd := t.odd || !t.d.content.isEmpty || t.gz }

/-- … when the request was HEAD: the headers are the whole response. -/
def qOver (status : Nat) (t : QData) : QData :=
  { t with d := t.d.push, sig := t.sig ++ [.headersCompleted status t.d.push.headers], gz := false, odd := t.odd || !t.d.content.isEmpty || t.gz, fin := some (status, t.d.push.headers) }

def quietCb (env : ClientEnv) (hd : Bool) : CB QData
  | .messageBegin, p, t => (p, qBegin t)
  | .field bs, p, t => (p, qF bs t)
  | .value bs, p, t => (p, qV bs t)
  | .headersComplete, p, t => if hd = true ∧ p.status ≠ 100 then (p.pause, qOver p.status t) else (p, qHead env p.status t)
  | .body bs, p, t => (p, qB bs t)
  | .messageComplete, p, t =>
    if p.status = 100 then (p.init.pause, { t with d := { t.d with headers := [], content := [] }, gz := false, odd := t.odd || !t.d.content.isEmpty || t.gz })
    else (p.pause, { t with fin := some (p.status, t.d.headers) })

theorem quietCb_tame (env : ClientEnv) (hd : Bool) : Tame (quietCb env hd) where
  tame := by
    intro c p s hk
    cases c with
    | messageComplete =>
      right
      show (ite (p.status = 100) _ _ : HParser × QData).1.errno = _ ∧ ∀ k, _ → Good k (ite (p.status = 100) _ _ : HParser × QData).1
      split
      · exact ⟨rfl, fun k hg => init_good k hg.noBad⟩
      · exact ⟨by show p.pause.errno = _; rw [pause_ok hk], fun k hg => hg.pause hk⟩
    | headersComplete =>
      by_cases h : hd = true ∧ p.status ≠ 100
      · right
        show (ite (hd = true ∧ p.status ≠ 100) _ _ : HParser × QData).1.errno = _ ∧ ∀ k, _ → Good k (ite (hd = true ∧ p.status ≠ 100) _ _ : HParser × QData).1
        rw [if_pos h]
        exact ⟨by show p.pause.errno = _; rw [pause_ok hk], fun k hg => hg.pause hk⟩
      · left
        show (ite (hd = true ∧ p.status ≠ 100) _ _ : HParser × QData).1 = _
        rw [if_neg h]
    | _ => exact Or.inl rfl
  done := by
    intro p s hk
    show (ite (p.status = 100) _ _ : HParser × QData).1.errno ≠ _
    split
    · show p.init.pause.errno ≠ .ok
      simp [HParser.init, HParser.pause]
    · show p.pause.errno ≠ .ok
      rw [pause_ok hk]; simp

theorem quietCb_laws (env : ClientEnv) (hd : Bool) : Laws (quietCb env hd) qF qV qB (fun s t => s.sig = t.sig ∧ s.fin = t.fin ∧ s.gz = t.gz) where
  tame := quietCb_tame env hd
  field := fun _ _ _ => rfl
  value := fun _ _ _ => rfl
  body := fun _ _ _ => rfl
  fieldApp := by intro a b s; unfold qF; rw [respCb_laws.fieldApp]
  valueApp := by intro a b s; unfold qV; rw [respCb_laws.valueApp]
  bodyApp := by
    intro a b s
    unfold qB
    rw [respCb_laws.bodyApp]
    cases a <;> cases b <;> cases s.odd <;> cases s.sig.isEmpty <;> simp
  bodyNil := by intro s; unfold qB; rw [respCb_laws.bodyNil]; simp
  refl := fun _ => ⟨rfl, rfl, rfl⟩
  symm := fun _ _ h => ⟨h.1.symm, h.2.1.symm, h.2.2.symm⟩
  trans := fun _ _ _ h h' => ⟨h.1.trans h'.1, h.2.1.trans h'.2.1, h.2.2.trans h'.2.2⟩
  relF := fun _ _ => ⟨rfl, rfl, rfl⟩
  relV := fun _ _ => ⟨rfl, rfl, rfl⟩
  relB := fun _ _ => ⟨rfl, rfl, rfl⟩

theorem told_quiet : ∀ (l : List RHeader) (t : QData), told qF qV t l = { t with d := told rF rV t.d l }
  | [], _ => rfl
  | h :: l, t => by
    show told qF qV (qV h.value (qF h.name t)) l = _
    rw [told_quiet l]
    rfl

abbrev QRel : QData → QData → Prop := fun s t => s.sig = t.sig ∧ s.fin = t.fin ∧ s.gz = t.gz

/-- Nothing of the response has arrived. -/
structure Await (p : HParser) (t : QData) : Prop where
  ok : p.errno = .ok
  state : p.state = .startRes
  nread : p.nread ≤ 2
  good : Good 0 p
  field : t.d.field = []
  value : t.d.value = []
  content : t.d.content = []
  sig : t.sig = []
  fin : t.fin = none
  gz : t.gz = false
  odd : t.odd = false

/-- An interim response of which `v` is missing. -/
def Inter (env : ClientEnv) (hd : Bool) (p : HParser) (t : QData) (v : Bytes) : Prop :=
  v ≠ [] ∧ ∃ x y, Ends (quietCb env hd) QRel p t v x y ∧ x.errno = .paused ∧ Await { x with errno := .ok } y

/-- The final response, of which `v` is missing. -/
def Final (env : ClientEnv) (m : Response) (p : HParser) (t : QData) (v : Bytes) : Prop :=
  v ≠ [] ∧ ∃ x y, Ends (quietCb env false) QRel p t v x y ∧ x.errno = .paused ∧ y.fin = some (num m.head.status, m.head.shown) ∧
    y.sig = [.headersCompleted (num m.head.status) m.head.shown] ∧ y.gz = (env.inflate.isSome && gzipped m.head.shown) ∧ y.odd = false ∧ y.d.content = m.content ∧ y.d.field = [] ∧ y.d.value = []

theorem quiet_pushed {p : HParser} {t : QData} (h : Await p t) (hd : RHead) :
    told qF qV (qBegin t) hd.headers = { t with d := told rF rV { t.d with headers := [], content := [], lastWasValue := false } hd.headers } ∧
    (told rF rV { t.d with headers := [], content := [], lastWasValue := false } hd.headers).push = { t.d with headers := hd.shown, content := [], lastWasValue := false } := by
  constructor
  · rw [told_quiet]
    have : qBegin t = { t with d := { t.d with headers := [], content := [], lastWasValue := false } } := by
      unfold qBegin; rw [h.content, h.gz]; simp
    rw [this]
  · have hp : ({ t.d with headers := [], content := [], lastWasValue := false } : RespData).push = { t.d with headers := [], content := [], lastWasValue := false } := rfl
    rw [told_push _ _ (by rw [hp]; exact h.field) (by rw [hp]; exact h.value), hp]
    simp [RHead.shown]

theorem told_content : ∀ (l : List RHeader) (d : RespData), (told rF rV d l).content = d.content
  | [], _ => rfl
  | h :: l, d => by
    show (told rF rV (rV h.value (rF h.name d)) l).content = _
    rw [told_content l]
    show d.push.content = d.content
    unfold RespData.push; split <;> rfl

theorem inter_await (env : ClientEnv) (hd : Bool) {p : HParser} {t : QData} (h : Await p t) {m : Response} (hm : Interim m) : Inter env hd p t m.render := by
  obtain ⟨e1, e2⟩ := quiet_pushed h m.head
  obtain ⟨p2, hf, he⟩ := ends_response (quietCb_laws env hd) (MB := qBegin) (fun _ _ => rfl) m hm.wf p h.ok h.state h.nread t
    { t with d := { t.d with headers := m.head.shown, content := [], lastWasValue := false } } (fun q _ hk => by
      have e0 : quietCb env hd .headersComplete q (told qF qV (qBegin t) m.head.headers) = (q, qHead env q.status (told qF qV (qBegin t) m.head.headers)) :=
        if_neg (fun h => h.2 (hk.status.trans hm.status))
      rw [e0, hk.status, hm.status, e1]
      unfold qHead
      rw [if_pos rfl]
      dsimp only
      rw [e2])
  refine ⟨render_ne m, _, _, he, ?_⟩
  have e3 : ∀ s, quietCb env hd .messageComplete p2 s = (p2.init.pause, { s with d := { s.d with headers := [], content := [] }, gz := false, odd := s.odd || !s.d.content.isEmpty || s.gz }) := by
    intro s
    show (ite (p2.status = 100) _ _ : HParser × QData) = _
    rw [if_pos (by rw [hf.knows.status, hm.status])]
  rw [e3, hm.empty]
  refine ⟨rfl, rfl, rfl, Nat.zero_le _, ?_, h.field, h.value, rfl, h.sig, h.fin, rfl, ?_⟩
  · have := hf.bad.trans h.good.noBad
    exact Good.plain this (Nat.zero_le _) (by simp [HParser.init, HParser.pause])
  · simp [qB, rB, h.odd, h.gz]

theorem final_await (env : ClientEnv) {p : HParser} {t : QData} (h : Await p t) {m : Response} (hm : m.Wf) (hs : num m.head.status ≠ 100) : Final env m p t m.render := by
  obtain ⟨e1, e2⟩ := quiet_pushed h m.head
  obtain ⟨p2, hf, he⟩ := ends_response (quietCb_laws env false) (MB := qBegin) (fun _ _ => rfl) m hm p h.ok h.state h.nread t
    { t with d := { t.d with headers := m.head.shown, content := [], lastWasValue := false }, sig := [.headersCompleted (num m.head.status) m.head.shown], gz := env.inflate.isSome && gzipped m.head.shown } (fun q _ hk => by
      have e0 : quietCb env false .headersComplete q (told qF qV (qBegin t) m.head.headers) = (q, qHead env q.status (told qF qV (qBegin t) m.head.headers)) := rfl
      rw [e0, hk.status, e1]
      unfold qHead
      rw [if_neg hs]
      dsimp only
      rw [e2, told_content, h.gz, h.odd, h.sig]
      rfl)
  refine ⟨render_ne m, _, _, he, ?_⟩
  have e3 : ∀ s, quietCb env false .messageComplete p2 s = (p2.pause, { s with fin := some (p2.status, s.d.headers) }) := by
    intro s
    show (ite (p2.status = 100) _ _ : HParser × QData) = _
    rw [if_neg (by rw [hf.knows.status]; exact hs)]
  rw [e3]
  refine ⟨by rw [pause_ok hf.ok], ?_, rfl, rfl, by simp [qB, h.odd], rfl, h.field, h.value⟩
  rw [hf.knows.status]; rfl

/-! ## HEAD -/

/-- The response to a HEAD request, of which `v` is missing: it ends with the headers, in whose last byte parsing stops. -/
def FinalHead (env : ClientEnv) (m : Response) (p : HParser) (t : QData) (v : Bytes) : Prop :=
  ∃ w x y, v = w ++ b!"\n" ∧ x.errno = .paused ∧ (∃ p1 t1, Steps (quietCb env true) QRel p t w p1 t1 ∧
      ∀ rest pos, execLoop (quietCb env true) p1 t1 (fresh p1) (b!"\n" ++ rest) pos = (x, y, pos)) ∧ y.fin = some (num m.head.status, m.head.shown) ∧
    y.sig = [.headersCompleted (num m.head.status) m.head.shown] ∧ y.gz = false ∧ y.odd = false ∧ y.d.content = [] ∧ y.d.field = [] ∧ y.d.value = []

theorem almost_ret {σ : Type} {cb : CB σ} {p p1 : HParser} {s s1 : σ} {m : Marks} (hf : p.fTrailing = false)
    (h : cb .headersComplete { p with state := .headersDone, upgrade := p.fUpgrade } s = (p1, s1)) (h1 : p1.errno ≠ .ok) : doHeadersAlmostDone cb p s m 10 = .ret p1 s1 0 := by
  unfold doHeadersAlmostDone
  rw [if_neg (by decide), hf, if_neg (by decide)]
  dsimp only
  rw [← hf, h]
  dsimp only
  rw [if_pos h1]

theorem finalHead_await (env : ClientEnv) {p : HParser} {t : QData} (h : Await p t) {m : Response} (hw : m.head.Wf) (hs : num m.head.status ≠ 100) (hb : m.wire = []) : FinalHead env m p t m.render := by
  obtain ⟨e1, e2⟩ := quiet_pushed h m.head
  have hL := quietCb_laws env true
  have hsz := hw.size
  have hq0 : p = at_ p .startRes p.hstate p.index p.nread := by rw [← h.state]; rfl
  have hn := h.nread
  obtain ⟨hs1, i1, k1⟩ := steps_head hL (MB := qBegin) (fun _ _ => rfl) m.head hw p h.ok p.hstate p.index p.nread t (by unfold maxHeaderSize; omega)
  rw [← hq0] at k1
  have hol : (RHead.open_ m.head).length + 1 = m.head.render.length := by rw [open_render]; simp
  generalize hnn : p.nread + (RHead.open_ m.head).length = nn at k1
  have hk := knows_headed p m.head
  have herr : (headed p m.head).errno = .ok := by rw [headed_eq]; exact h.ok
  have hfu : (headed p m.head).fUpgrade = false := by rw [headed_eq]
  have hft : (headed p m.head).fTrailing = false := by rw [headed_eq]
  generalize headed p m.head = Q at k1 hk herr hfu hft
  have hc : quietCb env true .headersComplete (reporting Q hs1 i1 (nn + 1)) (told qF qV (qBegin t) m.head.headers) =
      ((reporting Q hs1 i1 (nn + 1)).pause, qOver (num m.head.status) (told qF qV (qBegin t) m.head.headers)) := by
    show (ite (true = true ∧ Q.status ≠ 100) _ _ : HParser × QData) = _
    rw [hk.status, if_pos ⟨rfl, hs⟩]
    show _ = ((reporting Q hs1 i1 (nn + 1)).pause, _)
    congr 1
    show qOver Q.status _ = _
    rw [hk.status]
  have hpz : (reporting Q hs1 i1 (nn + 1)).pause.errno = .paused := by rw [pause_ok (p := reporting Q hs1 i1 (nn + 1)) herr]
  refine ⟨RHead.open_ m.head, (reporting Q hs1 i1 (nn + 1)).pause, qOver (num m.head.status) (told qF qV (qBegin t) m.head.headers), ?_, hpz, ⟨_, _, k1, ?_⟩, ?_⟩
  · unfold Response.render
    rw [hb, List.append_nil, open_render]
  · intro rest pos
    have hsw : switch (quietCb env true) (counted (at_ Q .headersAlmostDone hs1 i1 nn)) (told qF qV (qBegin t) m.head.headers) (fresh (at_ Q .headersAlmostDone hs1 i1 nn)) 10 ([10] ++ rest) =
        .ret (reporting Q hs1 i1 (nn + 1)).pause (qOver (num m.head.status) (told qF qV (qBegin t) m.head.headers)) 0 := by
      show doHeadersAlmostDone (quietCb env true) (at_ Q .headersAlmostDone hs1 i1 (nn + 1)) _ {} 10 = _
      refine almost_ret hft ?_ (by rw [hpz]; simp)
      refine (congrArg (fun p => quietCb env true .headersComplete p _) ?_).trans hc
      unfold reporting at_
      dsimp only
      rw [hfu]
    show execLoop (quietCb env true) _ _ _ (10 :: rest) pos = _
    rw [execLoop_cons, if_neg, show (10 :: rest : Bytes) = [10] ++ rest from rfl, hsw]
    · rfl
    · show ¬ (true && decide (nn + 1 > maxHeaderSize)) = true
      simp only [Bool.true_and, decide_eq_true_eq]
      unfold maxHeaderSize
      omega
  · rw [e1]
    unfold qOver
    dsimp only
    rw [e2, told_content, h.odd, h.gz, h.sig]
    exact ⟨rfl, rfl, rfl, rfl, rfl, h.field, h.value⟩

end Pillow
