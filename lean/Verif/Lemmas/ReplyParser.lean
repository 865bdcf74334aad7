import Verif.Lemmas.ReplyWhole
/-!
# `HttpResponseParser` on well-formed responses
-/
namespace Pillow
open Spec

/-- The parser is between two responses. -/
structure Idle (r : RespParser) : Prop where
  safe : Safe r.p
  ok : r.p.errno = .ok
  state : r.p.state = .startRes
  nread : r.p.nread ≤ 2
  field : r.d.field = []
  value : r.d.value = []

theorem push_clean (d : RespData) (h1 : d.push.field = []) (h2 : d.push.value = []) (f v : Bytes) :
    (rV v (rF f d)) = { d.push with field := f, value := v, lastWasValue := true } := by
  unfold rV rF
  rw [h1, h2]
  rfl

theorem told_push : ∀ (l : List RHeader) (d : RespData), d.push.field = [] → d.push.value = [] →
    (told rF rV d l).push = { d.push with headers := d.push.headers ++ l.map RHeader.shown }
  | [], d, _, _ => by show d.push = _; simp
  | h :: l, d, h1, h2 => by
    have e : told rF rV d (h :: l) = told rF rV (rV h.value (rF h.name d)) l := rfl
    rw [e, push_clean d h1 h2]
    have hl : d.push.lastWasValue = false := by unfold RespData.push; split <;> simp_all
    rw [told_push l _ rfl rfl]
    show ({ d.push with headers := d.push.headers ++ [⟨h.name, h.value⟩] ++ l.map RHeader.shown, field := [], value := [], lastWasValue := false } : RespData) = _
    generalize d.push = e at h1 h2 hl
    cases e
    dsimp only at h1 h2 hl
    subst h1 h2 hl
    simp [RHeader.shown]

/-- `messageBegin`. -/
def rBegin (d : RespData) : RespData := { d with headers := [], content := [], lastWasValue := false, hooks := d.hooks ++ [.begin] }

/-- The data after the headers of `h`. -/
def rHead (d : RespData) (h : RHead) : RespData :=
  { field := [], value := [], lastWasValue := false, headers := h.shown, content := [], hooks := d.hooks ++ [.begin, .headersComplete (num h.status) h.shown] }

theorem told_hooks : ∀ (l : List RHeader) (d : RespData), (told rF rV d l).hooks = d.hooks
  | [], _ => rfl
  | h :: l, d => by
    show (told rF rV (rV h.value (rF h.name d)) l).hooks = _
    rw [told_hooks l]
    show d.push.hooks = d.hooks
    exact push_hooks d

theorem resp_head {d : RespData} (h1 : d.field = []) (h2 : d.value = []) (h : RHead) (p : HParser) (hs : p.status = num h.status) :
    respCb .headersComplete p (told rF rV (rBegin d) h.headers) = (p, rHead d h) := by
  have hp : (rBegin d).push = rBegin d := rfl
  have ht := told_push h.headers (rBegin d) (by rw [hp]; exact h1) (by rw [hp]; exact h2)
  show (p, ({ (told rF rV (rBegin d) h.headers).push with hooks := (told rF rV (rBegin d) h.headers).push.hooks ++ [.headersComplete p.status (told rF rV (rBegin d) h.headers).push.headers] } : RespData)) = _
  rw [ht, hp, hs]
  unfold rHead rBegin
  simp [h1, h2, RHead.shown]

theorem execute_loop {σ : Type} {cb : CB σ} {p : HParser} {s : σ} {data : Bytes} (he : p.errno = .ok) (hd : data ≠ []) :
    execute cb p s data = execLoop cb p s (fresh p) data 0 := by
  obtain ⟨c, t, rfl⟩ := List.exists_cons_of_ne_nil hd
  unfold execute fresh
  rw [if_neg (by simp [he])]

theorem render_ne (m : Response) : m.render ≠ [] := by
  unfold Response.render RHead.render; simp

theorem head_ne (h : RHead) : h.render ≠ [] := by
  unfold RHead.render; simp

/-- A whole response, in one `inject`. -/
theorem inject_response {r : RespParser} (hr : Idle r) (m : Response) (hw : m.Wf) (rest : Bytes) : ∃ p2, Finished p2 r.p m.head ∧
    r.inject (m.render ++ rest) = (⟨p2, { rHead r.d m.head with content := m.content, hooks := r.d.hooks ++ m.report }⟩, m.render.length) := by
  obtain ⟨p2, hf, he⟩ := ends_response respCb_laws (MB := rBegin) (fun _ _ => rfl) m hw r.p hr.ok hr.state hr.nread r.d (rHead r.d m.head)
    (fun p _ hk => resp_head hr.field hr.value m.head p hk.status)
  refine ⟨p2, hf, ?_⟩
  have hx := he (hr.safe.2 (Or.inl hr.ok)) hr.ok rest 0
  rw [← execute_loop hr.ok (by simp [render_ne])] at hx
  have e1 : respCb .messageComplete p2 (rB m.content (rHead r.d m.head)) = ({ p2 with errno := .paused }, { rHead r.d m.head with content := m.content, hooks := r.d.hooks ++ m.report }) := by
    show (p2.pause, _) = _
    rw [pause_ok hf.ok, hf.knows.status]
    simp [rB, rHead, Response.report]
  rw [e1] at hx
  dsimp only at hx
  have hp := hx.parser
  have hs := hx.state (by rw [hp]; exact Or.inr rfl)
  have hc := hx.consumed
  dsimp only at hp hs hc
  unfold RespParser.inject
  dsimp only
  rw [hp, hs, hc, if_pos rfl]
  have : ({ p2 with errno := Errno.ok } : HParser) = p2 := by rw [← hf.ok]
  simp [this]

theorem deliver_response {r : RespParser} (hr : Idle r) (m : Response) (hw : m.Wf) : ∃ p2, Finished p2 r.p m.head ∧
    deliver r m.render = ⟨p2, { rHead r.d m.head with content := m.content, hooks := r.d.hooks ++ m.report }⟩ := by
  obtain ⟨p2, hf, he⟩ := inject_response hr m hw []
  refine ⟨p2, hf, ?_⟩
  rw [List.append_nil] at he
  have hl : 0 < m.render.length := List.length_pos_iff.2 (render_ne m)
  rw [deliver_cons (render_ne m) (by rw [he]; exact hl) (by rw [he, hasError_iff]; exact Or.inl hf.ok), he]
  dsimp only
  rw [List.drop_length, deliver_nil]

theorem deliver_idle {r : RespParser} (hr : Idle r) (m : Response) (hw : m.Wf) (hk : m.head.Keeps) : Idle (deliver r m.render) := by
  have hs := (deliver_safe m.render r hr.safe (by rw [hr.ok]; simp)).1
  obtain ⟨p2, hf, he⟩ := deliver_response hr m hw
  rw [he] at hs ⊢
  exact ⟨hs, hf.ok, by rw [hf.state, if_pos hk], hf.nread, rfl, rfl⟩

theorem clear_idle {r : RespParser} (hb : r.p.bad = false) (h1 : r.d.field = []) (h2 : r.d.value = []) : Idle r.clear :=
  ⟨init_safe hb, rfl, rfl, Nat.zero_le _, h1, h2⟩

theorem eof_complete {p2 : HParser} {d : RespData} {h : RHead} {content : Bytes} (hst : p2.state = .bodyEof) (hok : p2.errno = .ok) (hs : p2.status = num h.status) :
    (⟨p2, { rHead d h with content := content }⟩ : RespParser).injectEof = ⟨p2, { rHead d h with content := content, hooks := d.hooks ++ h.reportEof content }⟩ := by
  have hx : ∀ x, execute respCb p2 x [] = ((respCb .messageComplete p2 x).1, (respCb .messageComplete p2 x).2, 0) := by
    intro x
    unfold execute
    rw [if_neg (fun e => e hok), hst]
  have e1 : respCb .messageComplete p2 { rHead d h with content := content } = ({ p2 with errno := .paused }, { rHead d h with content := content, hooks := d.hooks ++ h.reportEof content }) := by
    show (p2.pause, _) = _
    rw [pause_ok hok, hs]
    simp [rHead, RHead.reportEof]
  unfold RespParser.injectEof RespParser.inject
  dsimp only
  rw [hx, e1]
  dsimp only
  rw [if_pos rfl, ← hok]

/-- A response that ends with the connection. -/
theorem deliver_eof {r : RespParser} (hr : Idle r) (h : RHead) (hw : h.Wf) (he : EndsWithConnection h) (content : Bytes) : ∃ p2, Knows p2 h ∧ p2.needsEof = true ∧ p2.state = .bodyEof ∧ p2.errno = .ok ∧
    deliver r (h.render ++ content) = ⟨p2, { rHead r.d h with content := content }⟩ ∧
    (deliver r (h.render ++ content)).injectEof = ⟨p2, { rHead r.d h with content := content, hooks := r.d.hooks ++ h.reportEof content }⟩ := by
  obtain ⟨p2, hk, hneof, hst, hok, hx⟩ := steps_untilEof respCb_laws (MB := rBegin) (fun _ _ => rfl) h hw he r.p hr.ok hr.state hr.nread r.d (rHead r.d h)
    (fun p _ hk => resp_head hr.field hr.value h p hk.status)
  obtain ⟨hg, -, hx⟩ := hx.trans respCb_laws (steps_eof respCb_laws p2 hst (rHead r.d h) content) (hr.safe.2 (Or.inl hr.ok)) hr.ok
  have hx := hx [] 0
  have hne : h.render ++ content ≠ [] := by simp [head_ne]
  rw [List.append_nil, ← execute_loop hr.ok hne, execLoop_nil, leftover_eq respCb_laws (fresh_ok p2) hok] at hx
  have hfr : fresh p2 = {} := by unfold fresh; rw [hst]; rfl
  rw [hfr] at hx
  have hp := hx.parser
  dsimp only at hp
  have hs := hx.state (by rw [hp]; exact Or.inl hok)
  have hc := hx.consumed
  dsimp only [flush] at hs hc
  have hinj : r.inject (h.render ++ content) = (⟨p2, { rHead r.d h with content := content }⟩, (h.render ++ content).length) := by
    unfold RespParser.inject
    dsimp only
    rw [hp, hs, hc, if_neg (by rw [hok]; simp)]
    simp [rB, rHead]
  have hdel : deliver r (h.render ++ content) = ⟨p2, { rHead r.d h with content := content }⟩ := by
    rw [deliver_cons hne (by rw [hinj]; exact List.length_pos_iff.2 hne) (by rw [hinj, hasError_iff]; exact Or.inl hok), hinj]
    dsimp only
    rw [List.drop_length, deliver_nil]
  refine ⟨p2, hk, hneof, hst, hok, hdel, ?_⟩
  rw [hdel]
  exact eof_complete hst hok hk.status

theorem ready_idle {r : RespParser} (h : Ready r) : Idle r := by
  induction h with
  | new => exact ⟨(used_safe .new).1, rfl, rfl, Nat.zero_le _, rfl, rfl⟩
  | reply m _ hw hk ih => exact deliver_idle ih m hw hk
  | closing m _ hw ih =>
    obtain ⟨p2, hf, he⟩ := deliver_response ih m hw
    rw [he]
    exact clear_idle (hf.bad.trans ih.safe.1) rfl rfl
  | eof h content _ hw he ih =>
    obtain ⟨p2, -, -, -, -, e1, e2⟩ := deliver_eof ih h hw he content
    have hs := (deliver_safe (h.render ++ content) _ ih.safe (by rw [ih.ok]; simp)).1.1
    rw [e1] at hs
    rw [e2]
    exact clear_idle hs rfl rfl
  | clear _ ih => exact clear_idle ih.safe.1 ih.field ih.value

theorem ready_used_safe {r : RespParser} (h : Ready r) : Safe r.p ∧ r.p.errno ≠ .paused :=
  ⟨(ready_idle h).safe, by rw [(ready_idle h).ok]; simp⟩

end Pillow
