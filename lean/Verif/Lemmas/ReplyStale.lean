import Verif.Lemmas.ReplyParser
import Verif.Lemmas.ReplyPart
import Verif.Spec.Stale
set_option linter.unusedSimpArgs false
/-!
# `HttpResponseParser` after any history
-/
namespace Pillow
open Spec

/-- The parser is between two responses, and a header was left in it. -/
structure Rested (r : RespParser) (l : Header) : Prop where
  safe : Safe r.p
  ok : r.p.errno = .ok
  state : r.p.state = .startRes
  nread : r.p.nread ≤ 2
  field : r.d.field = l.name
  value : r.d.value = l.value

theorem push_last (d : RespData) : d.push.lastWasValue = false := by unfold RespData.push; split <;> simp_all

theorem told_left (l : List RHeader) (d : RespData) : (told rF rV d l).push = { d.push with headers := d.push.headers ++ glued ⟨d.push.field, d.push.value⟩ (l.map RHeader.shown), field := (leftBy ⟨d.push.field, d.push.value⟩ (l.map RHeader.shown)).name, value := (leftBy ⟨d.push.field, d.push.value⟩ (l.map RHeader.shown)).value } := by
  cases l with
  | nil => show d.push = _; simp [glued, leftBy]
  | cons h l =>
    have hl := push_last d
    have e : told rF rV d (h :: l) = told rF rV (rV h.value (rF h.name d)) l := rfl
    have e2 : (rV h.value (rF h.name d)).push = { d.push with headers := d.push.headers ++ [⟨d.push.field ++ h.name, d.push.value ++ h.value⟩], field := [], value := [], lastWasValue := false } := rfl
    rw [e, told_push l _ rfl rfl, e2]
    generalize d.push = e at hl
    cases e
    dsimp only at hl
    subst hl
    simp [glued, leftBy, noHeader, RHeader.shown]

/-- The data after the headers of `h`. -/
def rHeadL (d : RespData) (l : Header) (h : RHead) : RespData :=
  { field := (leftBy l h.shown).name, value := (leftBy l h.shown).value, lastWasValue := false, headers := glued l h.shown, content := [],
    hooks := d.hooks ++ [.begin, .headersComplete (num h.status) (glued l h.shown)] }

theorem resp_headL {d : RespData} {l : Header} (h1 : d.field = l.name) (h2 : d.value = l.value) (h : RHead) (p : HParser) (hs : p.status = num h.status) :
    respCb .headersComplete p (told rF rV (rBegin d) h.headers) = (p, rHeadL d l h) := by
  have hp : (rBegin d).push = rBegin d := rfl
  have ht := told_left h.headers (rBegin d)
  show (p, ({ (told rF rV (rBegin d) h.headers).push with hooks := (told rF rV (rBegin d) h.headers).push.hooks ++ [.headersComplete p.status (told rF rV (rBegin d) h.headers).push.headers] } : RespData)) = _
  rw [ht, hp, hs]
  unfold rHeadL rBegin
  simp [h1, h2, RHead.shown]

theorem inject_responseL {r : RespParser} {l : Header} (hr : Rested r l) (m : Response) (hw : m.Wf) (rest : Bytes) : ∃ p2, Finished p2 r.p m.head ∧
    r.inject (m.render ++ rest) = (⟨p2, { rHeadL r.d l m.head with content := m.content, hooks := r.d.hooks ++ m.reportAfter l }⟩, m.render.length) := by
  obtain ⟨p2, hf, he⟩ := ends_response respCb_laws (MB := rBegin) (fun _ _ => rfl) m hw r.p hr.ok hr.state hr.nread r.d (rHeadL r.d l m.head)
    (fun p _ hk => resp_headL hr.field hr.value m.head p hk.status)
  refine ⟨p2, hf, ?_⟩
  have hx := he (hr.safe.2 (Or.inl hr.ok)) hr.ok rest 0
  rw [← execute_loop hr.ok (by simp [render_ne])] at hx
  have e1 : respCb .messageComplete p2 (rB m.content (rHeadL r.d l m.head)) = ({ p2 with errno := .paused }, { rHeadL r.d l m.head with content := m.content, hooks := r.d.hooks ++ m.reportAfter l }) := by
    show (p2.pause, _) = _
    rw [pause_ok hf.ok, hf.knows.status]
    simp [rB, rHeadL, Response.reportAfter]
  rw [e1] at hx
  dsimp only at hx
  have hp := hx.parser
  have hs := hx.state (by rw [hp]; exact Or.inr rfl)
  have hc := hx.consumed
  dsimp only at hp hs hc
  unfold RespParser.inject
  dsimp only
  rw [hp, hs, hc, if_pos rfl]
  have : ({ p2 with errno := Errno.ok } : HParser) = p2 := by rw [← hf.ok]
  simp [this]

theorem deliver_responseL {r : RespParser} {l : Header} (hr : Rested r l) (m : Response) (hw : m.Wf) : ∃ p2, Finished p2 r.p m.head ∧
    deliver r m.render = ⟨p2, { rHeadL r.d l m.head with content := m.content, hooks := r.d.hooks ++ m.reportAfter l }⟩ := by
  obtain ⟨p2, hf, he⟩ := inject_responseL hr m hw []
  refine ⟨p2, hf, ?_⟩
  rw [List.append_nil] at he
  have hl : 0 < m.render.length := List.length_pos_iff.2 (render_ne m)
  rw [deliver_cons (render_ne m) (by rw [he]; exact hl) (by rw [he, hasError_iff]; exact Or.inl hf.ok), he]
  dsimp only
  rw [List.drop_length, deliver_nil]

theorem rested_next {r : RespParser} {l : Header} (hr : Rested r l) (m : Response) (hw : m.Wf) (hk : m.head.Keeps) : Rested (deliver r m.render) (leftBy l m.head.shown) := by
  have hs := (deliver_safe m.render r hr.safe (by rw [hr.ok]; simp)).1
  obtain ⟨p2, hf, he⟩ := deliver_responseL hr m hw
  rw [he] at hs ⊢
  exact ⟨hs, hf.ok, by rw [hf.state, if_pos hk], hf.nread, rfl, rfl⟩

theorem rested_clear {r : RespParser} (hb : r.p.bad = false) : Rested r.clear ⟨r.d.field, r.d.value⟩ := ⟨init_safe hb, rfl, rfl, Nat.zero_le _, rfl, rfl⟩

theorem rested_idle {r : RespParser} (h : Idle r) : Rested r noHeader := ⟨h.safe, h.ok, h.state, h.nread, h.field, h.value⟩

theorem rested_sequence : ∀ (ms : List Response) (r : RespParser) (l : Header), Rested r l → (∀ m ∈ ms, m.Wf ∧ m.head.Keeps) →
    (deliver r (ms.map Response.render).flatten).d.hooks = r.d.hooks ++ reportsAfter l ms ∧ (deliver r (ms.map Response.render).flatten).hasError = false
  | [], r, l, hr, _ => by
    simp only [List.map_nil, List.flatten_nil, deliver_nil, reportsAfter, List.append_nil]
    exact ⟨trivial, hasError_iff.2 (Or.inl hr.ok)⟩
  | m :: ms, r, l, hr, h => by
    obtain ⟨hw, hk⟩ := h m (by simp)
    simp only [List.map_cons, List.flatten_cons]
    obtain ⟨i1, i2⟩ := rested_sequence ms (deliver r m.render) _ (rested_next hr m hw hk) (fun x hx => h x (by simp [hx]))
    have ha := deliver_append m.render (ms.map Response.render).flatten r hr.safe (by rw [hr.ok]; simp)
    have he : (deliver r (m.render ++ (ms.map Response.render).flatten)).hasError = false := by
      unfold RespParser.hasError at i2 ⊢; rw [ha.parser]; exact i2
    have hs := ha.same he
    obtain ⟨p2, -, e⟩ := deliver_responseL hr m hw
    rw [hs]
    refine ⟨i1.trans ?_, i2⟩
    rw [e]
    simp [reportsAfter]

/-! ### Stopping within a header -/

/-- The data after part of a message, when the parser waits for more. -/
theorem deliver_steps {r : RespParser} (hs : Safe r.p) (ho : r.p.errno = .ok) {data : Bytes} (hd : data ≠ []) {p' : HParser} {d' : RespData}
    (h : Steps respCb (fun s t => s.hooks = t.hooks) r.p r.d data p' d') (hfl : flush rF rV rB d' (fresh p') = d') : deliver r data = ⟨p', d'⟩ := by
  obtain ⟨hg, hok, hx⟩ := h (hs.2 (Or.inl ho)) ho
  have hx := hx [] 0
  rw [List.append_nil, ← execute_loop ho hd, execLoop_nil, leftover_eq respCb_laws (fresh_ok p') hok, hfl] at hx
  have hp := hx.parser
  dsimp only at hp
  have hst := hx.state (by rw [hp]; exact Or.inl hok)
  have hc := hx.consumed
  dsimp only at hst hc
  have hinj : r.inject data = (⟨p', d'⟩, data.length) := by
    unfold RespParser.inject
    dsimp only
    rw [hp, hst, hc, if_neg (by rw [hok]; simp)]
    simp
  rw [deliver_cons hd (by rw [hinj]; exact List.length_pos_iff.2 hd) (by rw [hinj, hasError_iff]; exact Or.inl hok), hinj]
  dsimp only
  rw [List.drop_length, deliver_nil]


theorem hexVal_num (c : Byte) (h : isNum c = true) : hexVal c = some (c.toNat - 48) ∧ c.toNat - 48 < 10 := by
  revert c; apply byte_forall; decide +kernel

theorem readFold_of_dec : ∀ (s : Bytes) (a : Nat), (∀ c ∈ s, isNum c = true) → s.foldl (fun acc c => do
    let a ← acc
    let d ← hexVal c
    if d < 10 then some (10 * a + d) else none) (some a) = some (dec a s)
  | [], a, _ => rfl
  | c :: s, a, h => by
    obtain ⟨h1, h2⟩ := hexVal_num c (h c (by simp))
    rw [List.foldl_cons, dec_cons]
    have : (do let a ← (some a : Option Nat); let d ← hexVal c; if d < 10 then some (10 * a + d) else none) = some (a * 10 + (c.toNat - 48)) := by
      simp [h1, h2, Nat.mul_comm]
    rw [this]
    exact readFold_of_dec s _ fun c hc => h c (by simp [hc])

theorem dec_append (a : Nat) (s t : Bytes) : dec a (s ++ t) = dec (dec a s) t := by unfold dec; rw [List.foldl_append]

/-- The beginning of a number is one. -/
theorem readNat_take {s : Bytes} {n b : Nat} (h : readNat 10 s = some n) (hn : n < b) (k : Nat) (hk : s.take k ≠ []) : ∃ m, readNat 10 (s.take k) = some m ∧ m < b := by
  obtain ⟨-, h2, h3⟩ := readNat_dec h
  refine ⟨dec 0 (s.take k), ?_, ?_⟩
  · unfold readNat
    rw [if_neg hk]
    exact readFold_of_dec _ 0 fun c hc => h2 c (List.mem_of_mem_take hc)
  · have := dec_mono (s.drop k) (dec 0 (s.take k))
    rw [← dec_append, List.take_append_drop, h3] at this
    omega

theorem flush_plain {d : RespData} {p : HParser} (h : p.state ≠ .field ∧ p.state ≠ .value) : flush rF rV rB d (fresh p) = d := by
  unfold fresh flush
  simp [h.1, h.2]

theorem flush_field {x : Bytes} {d : RespData} {p : HParser} (h : p.state = .field) : flush rF rV rB (rF x d) (fresh p) = rF x d := by
  unfold fresh flush
  simp only [h, if_true, if_false, reduceCtorEq]
  rw [← respCb_laws.fieldApp, List.append_nil]

theorem flush_value {x : Bytes} {d : RespData} {p : HParser} (h : p.state = .value) : flush rF rV rB (rV x d) (fresh p) = rV x d := by
  unfold fresh flush
  simp only [h, if_true, if_false, reduceCtorEq]
  rw [← respCb_laws.valueApp, List.append_nil]

/-- Reading stops within a header line. -/
theorem steps_stop (x : RHeader) (hw : x.Wf) (hlen : SameCI x.name b!"content-length" → x.value ≠ [] → ∃ n, readNat 10 x.value = some n ∧ n < ullMax)
    (hup : SameCI x.name b!"upgrade" → x.value = []) (q : HParser) (he : q.errno = .ok) (st : PState) (hst : st = .fieldStart ∨ st = .valueLws) (hs : HState) (i n : Nat)
    (s : RespData) (hn : n + x.render.length ≤ maxHeaderSize) (part : Bytes) (hp : part <+: x.render) (h0 : part ≠ []) :
    ∃ p' d', Steps respCb (fun s t => s.hooks = t.hooks) (at_ q st hs i n) s part p' d' ∧ flush rF rV rB d' (fresh p') = d' ∧
      d'.field = s.push.field ++ (x.part part.length).name ∧ d'.value = s.push.value ++ (x.part part.length).value := by
  have hL := respCb_laws
  have el : x.render.length = x.name.length + 1 + x.pad.length + x.value.length + 2 := by
    unfold RHeader.render; simp only [List.length_append, List.length_cons, List.length_nil]
  have hpl := hp.length_le
  have hpt : part = x.render.take part.length := (List.prefix_iff_eq_take.1 hp)
  have h0l : 0 < part.length := List.length_pos_iff.2 h0
  generalize hk : part.length = k at *
  subst hpt
  rw [el] at hn hpl
  have vF : ∀ t, (rF t s).value = s.push.value := fun t => rfl
  by_cases c1 : k ≤ x.name.length
  · have e : x.render.take k = x.name.take k := by
      unfold RHeader.render
      simp only [List.append_assoc]
      rw [List.take_append_of_le_length c1]
    rw [e] at h0 ⊢
    obtain ⟨hs1, i1, -, k1⟩ := steps_field hL (x.name.take k) q st hst hs i n s h0 (fun b hb => hw.name.2 b (List.mem_of_mem_take hb)) (by rw [List.length_take]; omega)
    refine ⟨_, _, k1, flush_field rfl, rfl, ?_⟩
    show s.push.value = _
    simp [RHeader.part, show k - (x.name.length + 1 + x.pad.length) = 0 by omega]
  obtain ⟨hs1, i1, hkd, k1⟩ := steps_field hL x.name q st hst hs i n s hw.name.1 hw.name.2 (by omega)
  have k2 := steps_colon hL q he hs1 i1 (n + x.name.length) x.name s (by omega)
  have hnm : x.name.take k = x.name := List.take_of_length_le (by omega)
  by_cases c2 : k ≤ x.name.length + 1 + x.pad.length
  · have e : x.render.take k = x.name ++ b!":" ++ x.pad.take (k - (x.name.length + 1)) := by
      unfold RHeader.render
      simp only [List.append_assoc]
      rw [List.take_append, hnm, List.take_append, List.take_of_length_le (l := b!":") (by simp; omega), List.take_append_of_le_length (by simp; omega)]
      congr 3
    rw [e]
    have k3 := steps_pad hL (x.pad.take (k - (x.name.length + 1))) q hs1 i1 (n + x.name.length + 1) (rF x.name s) (fun b hb => hw.pad b (List.mem_of_mem_take hb)) (by rw [List.length_take]; omega)
    refine ⟨_, _, (k1.trans hL k2).trans hL k3, flush_plain (by simp [at_]), ?_, ?_⟩
    · show s.push.field ++ x.name = _
      simp [RHeader.part, hnm]
    · show s.push.value = _
      simp [RHeader.part, show k - (x.name.length + 1 + x.pad.length) = 0 by omega]
  have k3 := steps_pad hL x.pad q hs1 i1 (n + x.name.length + 1) (rF x.name s) hw.pad (by omega)
  have k0 := (k1.trans hL k2).trans hL k3
  have er : x.render = (x.name ++ b!":" ++ x.pad) ++ (x.value ++ b!"\r\n") := by unfold RHeader.render; simp
  have e : x.render.take k = (x.name ++ b!":" ++ x.pad) ++ (x.value ++ b!"\r\n").take (k - (x.name.length + 1 + x.pad.length)) := by
    rw [er, List.take_append, List.take_of_length_le (by simp; omega)]
    congr 2
    simp; omega
  have hnp : (x.part k).name = x.name := hnm
  have hvp : (x.part k).value = x.value.take (k - (x.name.length + 1 + x.pad.length)) := rfl
  rw [e, hnp, hvp]
  generalize hj : k - (x.name.length + 1 + x.pad.length) = j at *
  have hj0 : 0 < j := by omega
  have hj2 : j ≤ x.value.length + 2 := by omega
  clear e k1 k2 k3 er
  generalize hn1 : n + x.name.length + 1 + x.pad.length = n1 at *
  by_cases c3 : j ≤ x.value.length
  · -- within the value
    rw [List.take_append_of_le_length c3]
    have hv : x.value.take j ≠ [] := by
      intro e
      have := congrArg List.length e
      rw [List.length_take, List.length_nil] at this
      omega
    have hw' : ({ x with value := x.value.take j } : RHeader).Wf := by
      refine ⟨hw.name, hw.pad, fun b hb => hw.value.1 b (List.mem_of_mem_take hb), ?_⟩
      have : (x.value.take j).head? = x.value.head? := by rw [List.head?_take, if_neg (by omega)]
      show (x.value.take j).head? ≠ some 32 ∧ (x.value.take j).head? ≠ some 9
      rw [this]
      exact hw.value.2
    obtain ⟨q1, hs2, i2, -, -, k4⟩ := steps_value hL { x with value := x.value.take j } hw'
      (fun h1 h2 => by
        obtain ⟨m, hm, hml⟩ := hlen h1 (fun e => h2 (by show x.value.take j = []; rw [e]; simp))
        exact readNat_take hm hml j hv)
      (fun h1 => by show x.value.take j = []; rw [hup h1]; simp) q he hs1 i1 n1 hkd (rF x.name s) hv (by show n1 + (x.value.take j).length ≤ _; rw [List.length_take]; omega)
    exact ⟨_, _, k0.trans hL k4, flush_value rfl, rfl, rfl⟩
  rw [List.take_of_length_le (show x.value.length ≤ j by omega)]
  -- the end of the line
  by_cases c4 : j = x.value.length + 1
  · have e : (x.value ++ b!"\r\n").take j = x.value ++ b!"\r" := by
      rw [List.take_append, List.take_of_length_le (by omega), c4, show x.value.length + 1 - x.value.length = 1 by omega]
      rfl
    rw [e]
    by_cases hv : x.value = []
    · have h1 : Steps respCb (fun s t => s.hooks = t.hooks) (at_ q .valueStart hs1 i1 n1) (rF x.name s) b!"\r" (at_ q .almostDone .general 0 (n1 + 1)) (rV [] (rF x.name s)) := by
        refine step_plain hL (by simp [at_]) (Or.inl (by simp only [at_]; omega)) ?_
        show dataValue respCb (at_ q .almostDone .general 0 (n1 + 1)) (rF x.name s) ⟨none, some [], none⟩ = _
        rw [dataValue_eq hL (by exact he)]
      rw [hv, List.nil_append]
      exact ⟨_, _, k0.trans hL h1, flush_plain (by simp [at_]), rfl, rfl⟩
    · obtain ⟨q1, hs2, i2, e1, -, k4⟩ := steps_value hL x hw hlen hup q he hs1 i1 n1 hkd (rF x.name s) hv (by omega)
      have h1 : Steps respCb (fun s t => s.hooks = t.hooks) (at_ q1 .value hs2 i2 (n1 + x.value.length)) (rV x.value (rF x.name s)) b!"\r" (at_ q1 .almostDone hs2 i2 (n1 + x.value.length + 1)) (rV x.value (rF x.name s)) := by
        refine step_plain hL (by simp [at_]) (Or.inl (by simp only [at_]; omega)) ?_
        show dataValue respCb (at_ q1 .almostDone hs2 i2 (n1 + x.value.length + 1)) (rV x.value (rF x.name s)) ⟨none, some [], none⟩ = _
        rw [dataValue_eq hL (by exact e1), ← hL.valueApp, List.append_nil]
      exact ⟨_, _, k0.trans hL (k4.trans hL h1), flush_plain (by simp [at_]), rfl, rfl⟩
  · obtain rfl : j = x.value.length + 2 := by omega
    rw [List.take_of_length_le (by simp)]
    obtain ⟨hs2, i2, k4⟩ := steps_header hL x hw hlen hup q he st hst hs i n s (by omega)
    rw [show (x.name ++ b!":" ++ x.pad) ++ (x.value ++ b!"\r\n") = x.render by unfold RHeader.render; simp]
    exact ⟨_, _, k4, flush_plain (by simp [at_]), rfl, rfl⟩


theorem wf_lengths {h : RHead} (hw : h.Wf) : ∀ x ∈ h.headers, SameCI x.name b!"content-length" → x.value ≠ [] → ∃ n, readNat 10 x.value = some n ∧ n < ullMax := by
  intro x hx h1 h2
  refine hw.lengths x.value ?_
  unfold RHead.lengths
  exact List.mem_map.2 ⟨x, List.mem_filter.2 ⟨hx, by simp [h1, h2]⟩, rfl⟩

theorem told_append {σ : Type} {F V : Bytes → σ → σ} (d : σ) (l : List RHeader) (x : RHeader) : told F V d (l ++ [x]) = V x.value (F x.name (told F V d l)) := by
  unfold told; rw [List.foldl_append]; rfl

theorem steps_headEnd {r : RespParser} {l : Header} (hr : Rested r l) {h : RHead} (hw : h.Wf) : ∃ p',
    Steps respCb (fun s t => s.hooks = t.hooks) r.p r.d (h.statusLine ++ (h.headers.map RHeader.render).flatten ++ b!"\r") p' (told rF rV (rBegin r.d) h.headers) ∧
      (p'.state ≠ .field ∧ p'.state ≠ .value) := by
  have hL := respCb_laws
  have hsz := hw.size
  have hrl : h.render.length = h.statusLine.length + (h.headers.map RHeader.render).flatten.length + 2 := by
    unfold RHead.render RHead.statusLine
    simp only [List.length_append, List.length_cons, List.length_nil]
  have hn := hr.nread
  have hm : maxHeaderSize = 80 * 1024 := rfl
  have hq0 : r.p = at_ r.p .startRes r.p.hstate r.p.index r.p.nread := by rw [← hr.state]; rfl
  have k1 := steps_line hL (MB := rBegin) (fun _ _ => rfl) h r.p hr.ok r.p.hstate r.p.index r.p.nread r.d hw.major hw.minor hw.status hw.reason
    (by show r.p.nread + h.statusLine.length ≤ _; omega)
  rw [← hq0] at k1
  obtain ⟨st2, hs2, i2, hst2, k2⟩ := steps_headers hL h.headers { begun r.p with major := num h.major, minor := num h.minor, status := num h.status } .fieldStart r.p.hstate r.p.index
    (r.p.nread + h.statusLine.length) (rBegin r.d) hw.headers (wf_lengths hw) hw.noUpgrade hr.ok (Or.inl rfl) (by omega)
  have hnb : r.p.nread + h.statusLine.length + (h.headers.map RHeader.render).flatten.length < maxHeaderSize := by omega
  generalize r.p.nread + h.statusLine.length + (h.headers.map RHeader.render).flatten.length = nn at k2 hnb
  generalize hQ : List.foldl upd _ h.headers = Q at k2
  have k3 : Steps respCb (fun s t => s.hooks = t.hooks) (at_ Q st2 hs2 i2 nn) (told rF rV (rBegin r.d) h.headers) b!"\r" (at_ Q .headersAlmostDone hs2 i2 (nn + 1)) (told rF rV (rBegin r.d) h.headers) := by
    refine step_plain hL ?_ (Or.inl (by simp only [at_]; omega)) ?_
    · rcases hst2 with rfl | rfl <;> simp [at_]
    · rcases hst2 with rfl | rfl <;> rfl
  exact ⟨_, (k1.trans hL k2).trans hL k3, by simp [at_]⟩

/-- A message that is given up within its headers. -/
theorem deliver_stops {r : RespParser} {l : Header} (hr : Rested r l) {h : RHead} (hw : h.Wf) {passed : Bytes} {before : Headers} {last : Header}
    (hc : StopsIn h passed before last) : (deliver r passed).d.field = (leftAt l before last).name ∧ (deliver r passed).d.value = (leftAt l before last).value := by
  have hL := respCb_laws
  have hb : (rBegin r.d).push = rBegin r.d := rfl
  have hl : (⟨(rBegin r.d).field, (rBegin r.d).value⟩ : Header) = l := by
    show (⟨r.d.field, r.d.value⟩ : Header) = l
    rw [hr.field, hr.value]
  have hn := hr.nread
  have hm : maxHeaderSize = 80 * 1024 := rfl
  cases hc
  case' atEnd hs x e =>
    have k := steps_headEnd hr hw
    obtain ⟨p', k, h1⟩ := k
    have := deliver_steps hr.safe hr.ok (by simp) k (flush_plain h1)
    rw [this]
    dsimp only
    rw [e, told_append]
    have ht := told_left hs (rBegin r.d)
    rw [hb, hl] at ht
    have e : rV x.value (rF x.name (told rF rV (rBegin r.d) hs)) = { (told rF rV (rBegin r.d) hs).push with field := (told rF rV (rBegin r.d) hs).push.field ++ x.name, value := (told rF rV (rBegin r.d) hs).push.value ++ x.value, lastWasValue := true } := rfl
    rw [e, ht]
    exact ⟨rfl, rfl⟩
  rename_i hs x rest part e hp h0
  have hsz := hw.size
  have hrl : h.render.length = h.statusLine.length + (hs.map RHeader.render).flatten.length + x.render.length + (rest.map RHeader.render).flatten.length + 2 := by
    unfold RHead.render RHead.statusLine
    rw [e]
    simp only [List.map_append, List.map_cons, List.flatten_append, List.flatten_cons, List.length_append, List.length_cons, List.length_nil]
    omega
  have hq0 : r.p = at_ r.p .startRes r.p.hstate r.p.index r.p.nread := by rw [← hr.state]; rfl
  have k1 := steps_line hL (MB := rBegin) (fun _ _ => rfl) h r.p hr.ok r.p.hstate r.p.index r.p.nread r.d hw.major hw.minor hw.status hw.reason
    (by show r.p.nread + h.statusLine.length ≤ _; omega)
  rw [← hq0] at k1
  obtain ⟨st2, hs2, i2, hst2, k2⟩ := steps_headers hL hs { begun r.p with major := num h.major, minor := num h.minor, status := num h.status } .fieldStart r.p.hstate r.p.index
    (r.p.nread + h.statusLine.length) (rBegin r.d) (fun y hy => hw.headers y (by rw [e]; simp [hy])) (fun y hy => wf_lengths hw y (by rw [e]; simp [hy]))
    (fun y hy => hw.noUpgrade y (by rw [e]; simp [hy])) hr.ok (Or.inl rfl) (by omega)
  obtain ⟨p', d', k3, hfl, f1, f2⟩ := steps_stop x (hw.headers x (by rw [e]; simp)) (wf_lengths hw x (by rw [e]; simp)) (hw.noUpgrade x (by rw [e]; simp))
    (hs.foldl upd { begun r.p with major := num h.major, minor := num h.minor, status := num h.status }) (by rw [foldl_upd]; exact hr.ok) st2 hst2 hs2 i2 (r.p.nread + h.statusLine.length + (hs.map RHeader.render).flatten.length)
    (told rF rV (rBegin r.d) hs) (by omega) part hp h0
  have := deliver_steps hr.safe hr.ok (by simp [h0]) ((k1.trans hL k2).trans hL k3) hfl
  have hd : deliver r (h.statusLine ++ (hs.map RHeader.render).flatten ++ part) = ⟨p', d'⟩ := this
  rw [hd]
  dsimp only
  rw [f1, f2, told_left]
  rw [hb, hl]
  exact ⟨rfl, rfl⟩

theorem stops_ne {h : RHead} {passed : Bytes} {before : Headers} {last : Header} (hc : StopsIn h passed before last) : passed ≠ [] := by
  cases hc <;> simp_all

theorem rested_stops {r : RespParser} {l : Header} (hr : Rested r l) {h : RHead} (hw : h.Wf) {passed : Bytes} {before : Headers} {last : Header}
    (hc : StopsIn h passed before last) : Rested (deliver r passed).clear (leftAt l before last) := by
  obtain ⟨h1, h2⟩ := deliver_stops hr hw hc
  have hs := (deliver_safe passed r hr.safe (by rw [hr.ok]; simp)).1.1
  have := rested_clear hs
  rw [h1, h2] at this
  exact this

theorem deliver_nothing (r : RespParser) : deliver r [] = r := deliver_nil r

/-- A message that is given up within the status line, or after the head. -/
theorem deliver_elsewhere {r : RespParser} (hr : Idle r) {m : Response} (hw : m.Wf) {u : Bytes} (hc : StopsElsewhere m u) : (deliver r u).d.field = [] ∧ (deliver r u).d.value = [] := by
  have hL := respCb_laws
  have hsz := hw.head.size
  have hR := rested_idle hr
  have hn := hr.nread
  have hm : maxHeaderSize = 80 * 1024 := rfl
  have hff : ∀ {p : HParser} {d : RespData}, fresh p = {} → flush rF rV rB d (fresh p) = d := by intro p d h; rw [h]; rfl
  have hbeg : ∀ d : RespData, d.field = [] → d.value = [] → (rBegin d).field = [] ∧ (rBegin d).value = [] := fun d h1 h2 => ⟨h1, h2⟩
  have hq0 : r.p = at_ r.p .startRes r.p.hstate r.p.index r.p.nread := by rw [← hr.state]; rfl
  have hrl : m.head.statusLine.length ≤ m.head.render.length := by
    unfold RHead.render RHead.statusLine
    simp only [List.length_append]
    omega
  cases hc with
  | line hp =>
    by_cases hu : u = []
    · subst hu; rw [deliver_nil]; exact ⟨hr.field, hr.value⟩
    obtain ⟨v, hv⟩ := hp
    by_cases hv0 : v = []
    · subst hv0
      rw [List.append_nil] at hv
      have k1 := steps_line hL (MB := rBegin) (fun _ _ => rfl) m.head r.p hr.ok r.p.hstate r.p.index r.p.nread r.d hw.head.major hw.head.minor hw.head.status hw.head.reason
        (by show r.p.nread + m.head.statusLine.length ≤ _; omega)
      rw [← hq0] at k1
      have := deliver_steps hr.safe hr.ok hu (by rw [hv]; exact k1) (flush_plain (by simp [at_]))
      rw [this]
      exact hbeg _ hr.field hr.value
    · obtain ⟨x, s', hx, hs', k⟩ := steps_linePart hL (MB := rBegin) (fun _ _ => rfl) m.head r.p hr.ok r.p.hstate r.p.index r.p.nread r.d hw.head.major hw.head.minor hw.head.status
        hw.head.reason (by show r.p.nread + m.head.statusLine.length ≤ _; omega) u v hv.symm hv0
      rw [← hq0] at k
      rw [deliver_steps hr.safe hr.ok hu k (hff hx)]
      rcases hs' with rfl | rfl
      · exact ⟨hr.field, hr.value⟩
      · exact hbeg _ hr.field hr.value
  | noHeaders h0 =>
    obtain ⟨p', k, h1⟩ := steps_headEnd hR hw.head
    rw [h0, List.map_nil, List.flatten_nil, List.append_nil] at k
    rw [deliver_steps hr.safe hr.ok (by simp) k (flush_plain h1)]
    exact hbeg _ hr.field hr.value
  | @body part hp =>
    have hle : ∀ hs : Headers, leftBy noHeader hs = noHeader := fun hs => by cases hs <;> rfl
    by_cases hpw : part = m.wire
    · rw [hpw]
      obtain ⟨p2, -, he⟩ := deliver_responseL hR m hw
      show (deliver r m.render).d.field = [] ∧ _
      rw [show m.head.render ++ m.wire = m.render from rfl, he]
      show (leftBy noHeader m.head.shown).name = [] ∧ (leftBy noHeader m.head.shown).value = []
      rw [hle]
      exact ⟨rfl, rfl⟩
    · obtain ⟨v, hv⟩ := hp
      have hv0 : v ≠ [] := by rintro rfl; exact hpw (by simpa using hv)
      obtain ⟨x, piece, ⟨hx, -⟩, k⟩ := steps_part hL (MB := rBegin) (fun _ _ => rfl) m.head hw.head part (Or.inr ⟨m.wire, m.content, v, hw.body, hv.symm, hv0⟩) r.p hr.ok hr.state hr.nread r.d
        (rHeadL r.d noHeader m.head) (fun p _ hk => resp_headL hr.field hr.value m.head p hk.status) part [] (by simp)
      rw [deliver_steps hr.safe hr.ok (by simp [RHead.render]) k (hff hx)]
      show (leftBy noHeader m.head.shown).name = [] ∧ (leftBy noHeader m.head.shown).value = []
      rw [hle]
      exact ⟨rfl, rfl⟩

theorem prefix_append {u a b : Bytes} (h : u <+: a ++ b) : u <+: a ∨ ∃ w, u = a ++ w ∧ w <+: b := by
  obtain ⟨t, ht⟩ := h
  rcases List.append_eq_append_iff.1 ht with ⟨w, h1, h2⟩ | ⟨w, h1, h2⟩
  · exact Or.inl ⟨w, h1.symm⟩
  · exact Or.inr ⟨w, h1, ⟨t, h2.symm⟩⟩

/-- The lines of a head: bytes that end somewhere in them. -/
theorem prefix_lines : ∀ (l : List RHeader) (w : Bytes), w <+: (l.map RHeader.render).flatten → w = [] ∨ ∃ hs x rest part, l = hs ++ x :: rest ∧ part <+: x.render ∧ part ≠ [] ∧
    w = (hs.map RHeader.render).flatten ++ part
  | [], w, h => Or.inl (by simpa using h)
  | x :: l, w, h => by
    rw [List.map_cons, List.flatten_cons] at h
    rcases prefix_append h with h' | ⟨v, rfl, h'⟩
    · by_cases hw : w = []
      · exact Or.inl hw
      · exact Or.inr ⟨[], x, l, w, rfl, h', hw, rfl⟩
    · rcases prefix_lines l v h' with rfl | ⟨hs, y, rest, part, rfl, h1, h2, rfl⟩
      · exact Or.inr ⟨[], x, l, x.render, rfl, List.prefix_refl _, by unfold RHeader.render; simp, by simp⟩
      · exact Or.inr ⟨x :: hs, y, rest, part, rfl, h1, h2, by simp⟩

/-- Every place where a message can be given up is one or the other. -/
theorem stops_cases (m : Response) {u : Bytes} (h : u <+: m.render) : StopsElsewhere m u ∨ ∃ before last, StopsIn m.head u before last := by
  rcases prefix_append (show u <+: m.head.render ++ m.wire from h) with hx | ⟨w, rfl, hw⟩
  rotate_left
  · exact Or.inl (.body hw)
  have e : m.head.render = m.head.statusLine ++ ((m.head.headers.map RHeader.render).flatten ++ (b!"\r" ++ b!"\n")) := by
    unfold RHead.render RHead.statusLine; simp
  rw [e] at hx
  clear h
  rcases prefix_append hx with hy | ⟨w, rfl, hy⟩
  · exact Or.inl (.line hy)
  clear hx
  rcases prefix_append hy with hz | ⟨v, rfl, h⟩
  · rcases prefix_lines _ w hz with rfl | ⟨hs, x, rest, part, e1, h1, h2, rfl⟩
    · exact Or.inl (.line (by simp))
    · rw [← List.append_assoc]
      exact Or.inr ⟨_, _, .within hs x rest part e1 h1 h2⟩
  · clear hy
    rw [← List.append_assoc]
    match v, h with
    | [], _ =>
      rw [List.append_nil]
      rcases List.eq_nil_or_concat m.head.headers with h0 | ⟨hs, x, h0⟩
      · rw [h0]; exact Or.inl (.line (by simp))
      · rw [List.concat_eq_append] at h0
        have := StopsIn.within (h := m.head) hs x [] x.render h0 (List.prefix_refl _) (by unfold RHeader.render; simp)
        rw [h0]
        simp only [List.map_append, List.flatten_append, List.map_cons, List.map_nil, List.flatten_cons, List.flatten_nil, List.append_nil, ← List.append_assoc]
        exact Or.inr ⟨_, _, this⟩
    | [c], h =>
      have hc : c = 13 := by
        obtain ⟨t, ht⟩ := h
        simp only [List.cons_append, List.nil_append] at ht
        exact (List.cons.inj ht).1
      subst hc
      rcases List.eq_nil_or_concat m.head.headers with h0 | ⟨hs, x, h0⟩
      · rw [h0]; simp only [List.map_nil, List.flatten_nil, List.append_nil]; exact Or.inl (.noHeaders h0)
      · rw [List.concat_eq_append] at h0
        exact Or.inr ⟨_, _, .atEnd hs x h0⟩
    | [c, c'], h =>
      have hc : [c, c'] = b!"\r\n" := h.eq_of_length rfl
      rw [hc]
      refine Or.inl ?_
      have := StopsElsewhere.body (m := m) (part := []) (by simp)
      rw [List.append_nil, e] at this
      simpa using this
    | _ :: _ :: _ :: _, h => exact absurd h.length_le (by simp)

/-! ### Trailers -/

theorem trailer_upd {x : RHeader} (hx : TrailerLine x) (q : HParser) : upd q x = q :=
  upd_same (fun h => absurd h hx.allowed.2.2.2.1) (fun h => absurd h (by rintro (h | h); exact hx.allowed.1 h; exact hx.allowed.2.1 h)) (fun h => absurd h hx.allowed.2.2.1)

theorem trailers_upd : ∀ (ts : List RHeader) (q : HParser), (∀ x ∈ ts, TrailerLine x) → ts.foldl upd q = q
  | [], _, _ => rfl
  | x :: ts, q, h => by rw [List.foldl_cons, trailer_upd (h x (by simp))]; exact trailers_upd ts q fun y hy => h y (by simp [hy])

theorem bodyAt_at (q : HParser) (st : PState) (hs : HState) (i n : Nat) : bodyAt q st hs i n = at_ { q with upgrade := false } st hs i n := rfl

section
variable {σ : Type} {cb : CB σ} {F V B : Bytes → σ → σ} {Rel : σ → σ → Prop}

theorem chunked_ends {w c : Bytes} (h : ChunkedBody w c) : ∃ b, w = b ++ b!"\r\n" := by
  induction h with
  | last size ext => exact ⟨_, rfl⟩
  | chunk size ext data wire content _ _ _ _ _ _ ih => obtain ⟨b, rfl⟩ := ih; exact ⟨size ++ ext ++ b!"\r\n" ++ data ++ b!"\r\n" ++ b, by simp⟩

/-- A chunked body with trailers. -/
theorem ends_trailed (hL : Laws cb F V B Rel) (ts : List RHeader) (ht : ∀ x ∈ ts, TrailerLine x) (hn : (ts.map RHeader.render).flatten.length + 2 ≤ maxHeaderSize) {w content : Bytes}
    (hw : ChunkedBody w content) : ∀ (body : Bytes), w = body ++ b!"\r\n" → ∀ (q : HParser), q.fChunked = true → ∀ (hs : HState) (i : Nat) (s : σ),
    q.errno = .ok → ∃ q' hs' i' n', q' = ({ q with contentLength := 0, fTrailing := true } : HParser) ∧
    Ends cb Rel (bodyAt q .chunkSizeStart hs i 0) s (body ++ (ts.map RHeader.render).flatten ++ b!"\r\n")
      (cb .messageComplete (bodyAt q' q'.newMessage hs' i' n') (told F V (B content s) ts)).1 (cb .messageComplete (bodyAt q' q'.newMessage hs' i' n') (told F V (B content s) ts)).2 := by
  induction hw with
  | last size ext h1 h2 h3 =>
    intro body hb q hq hs i s he
    obtain rfl := List.append_cancel_right hb
    have k1 := steps_sizeLine hL q hq hs i s size ext 0 h1 (by decide) h2 h3
    rw [if_pos rfl] at k1
    generalize hq' : ({ q with contentLength := 0, fTrailing := true } : HParser) = q' at k1 ⊢
    have he' : q'.errno = .ok := by rw [← hq']; exact he
    rw [bodyAt_at q'] at k1
    obtain ⟨st2, hs2, i2, hst2, k2⟩ := steps_headers hL ts { q' with upgrade := false } .fieldStart hs i 0 s (fun x hx => (ht x hx).wf)
      (fun x hx h => absurd h (ht x hx).allowed.2.2.1) (fun x hx h => absurd h (ht x hx).allowed.2.2.2.2) he' (Or.inl rfl) (by omega)
    rw [trailers_upd ts _ ht] at k2
    generalize hnn : 0 + (ts.map RHeader.render).flatten.length = nn at k2
    have k3 : Steps cb Rel (at_ { q' with upgrade := false } st2 hs2 i2 nn) (told F V s ts) b!"\r" (bodyAt q' .headersAlmostDone hs2 i2 (nn + 1)) (told F V s ts) := by
      refine step_plain hL ?_ (Or.inl (by simp only [at_]; omega)) ?_
      · rcases hst2 with rfl | rfl <;> simp [at_]
      · rcases hst2 with rfl | rfl <;> rfl
    have k4 : Ends cb Rel (bodyAt q' .headersAlmostDone hs2 i2 (nn + 1)) (told F V s ts) b!"\n" (cb .messageComplete (bodyAt q' q'.newMessage hs2 i2 (nn + 2)) (told F V s ts)).1
        (cb .messageComplete (bodyAt q' q'.newMessage hs2 i2 (nn + 2)) (told F V s ts)).2 := by
      refine step_ret hL (by simp [bodyAt, at_]) (Or.inl (by simp only [bodyAt, at_]; omega)) ?_
      rw [← notify_done hL (by exact he') (told F V s ts) {}]
      show doHeadersAlmostDone cb (bodyAt q' .headersAlmostDone hs2 i2 (nn + 2)) (told F V s ts) {} 10 = _
      unfold doHeadersAlmostDone
      rw [if_neg (by decide), if_pos (by rw [← hq']; rfl)]
      rfl
    refine ⟨q', hs2, i2, nn + 2, hq'.symm ▸ rfl, ?_⟩
    have := ((k1.trans hL k2).trans hL k3).ends hL k4
    rw [hL.bodyNil]
    rw [show size ++ ext ++ b!"\r\n" ++ (ts.map RHeader.render).flatten ++ b!"\r" ++ b!"\n" = size ++ ext ++ b!"\r\n" ++ (ts.map RHeader.render).flatten ++ b!"\r\n" by simp] at this
    exact this
  | chunk size ext data wire content h1 h2 h3 h4 h5 hc ih =>
    intro body hb q hq hs i s he
    have hdl : data.length ≠ 0 := by simpa using h2
    obtain ⟨b', rfl⟩ := chunked_ends hc
    have hb' : body = size ++ ext ++ b!"\r\n" ++ data ++ b!"\r\n" ++ b' := by
      rw [← List.append_assoc] at hb
      exact (List.append_cancel_right hb).symm
    have k1 := steps_sizeLine hL q hq hs i s size ext data.length h1 h3 h4 h5
    rw [if_neg hdl] at k1
    have k2 := steps_chunkData hL { q with contentLength := data.length } hs i s data rfl h2
    have k3 := steps_chunkEnd hL { q with contentLength := 0 } hq rfl hs i (B data s)
    obtain ⟨q', hs', i', n', rfl, k4⟩ := ih b' rfl { q with contentLength := 0 } hq hs i (B data s) he
    refine ⟨_, hs', i', n', rfl, ?_⟩
    have := ((k1.trans hL k2).trans hL k3).ends hL k4
    rw [← hL.bodyApp] at this
    rw [hb']
    simp only [List.append_assoc] at this ⊢
    exact this
end


/-- The data after trailers. -/
theorem told_trailers (l : List RHeader) (x : RHeader) (d : RespData) (h1 : d.lastWasValue = false) (h2 : d.field = []) (h3 : d.value = []) :
    (told rF rV d (l ++ [x])).headers = d.headers ++ l.map RHeader.shown ∧ (told rF rV d (l ++ [x])).field = x.name ∧ (told rF rV d (l ++ [x])).value = x.value ∧
    (told rF rV d (l ++ [x])).hooks = d.hooks ∧ (told rF rV d (l ++ [x])).content = d.content := by
  have hp : d.push = d := by unfold RespData.push; simp [h1]
  have ht := told_left l d
  rw [hp, h2, h3] at ht
  have hg : ∀ hs : Headers, glued ⟨[], []⟩ hs = hs := fun hs => by cases hs <;> simp [glued]
  have hl : ∀ hs : Headers, leftBy ⟨[], []⟩ hs = noHeader := fun hs => by cases hs <;> rfl
  rw [hg, hl] at ht
  rw [told_append]
  have e : rV x.value (rF x.name (told rF rV d l)) = { (told rF rV d l).push with field := (told rF rV d l).push.field ++ x.name, value := (told rF rV d l).push.value ++ x.value, lastWasValue := true } := rfl
  rw [e, ht]
  exact ⟨rfl, rfl, rfl, rfl, rfl⟩

theorem deliver_trailed {r : RespParser} (hr : Idle r) (t : Trailed) (hw : t.Wf) : ∃ p2 d2, deliver r t.render = ⟨p2, d2⟩ ∧ p2.errno = .ok ∧ p2.shouldKeepAlive = decide t.head.Keeps ∧
    d2.hooks = r.d.hooks ++ t.report ∧ d2.field = t.last.name ∧ d2.value = t.last.value := by
  have hL := respCb_laws
  have hsz := hw.head.size
  have hq0 : r.p = at_ r.p .startRes r.p.hstate r.p.index r.p.nread := by rw [← hr.state]; rfl
  have hn := hr.nread
  obtain ⟨hs1, i1, k1⟩ := steps_head hL (MB := rBegin) (fun _ _ => rfl) t.head hw.head r.p hr.ok r.p.hstate r.p.index r.p.nread r.d (by unfold maxHeaderSize; omega)
  rw [← hq0] at k1
  have hol : (RHead.open_ t.head).length + 1 = t.head.render.length := by rw [open_render]; simp
  generalize hnn : r.p.nread + (RHead.open_ t.head).length = nn at k1
  have hk := knows_headed r.p t.head
  have herr : (headed r.p t.head).errno = .ok := by rw [headed_eq]; exact hr.ok
  have hch : (headed r.p t.head).fChunked = true := by rw [headed_eq]; simpa using hw.chunked
  have hfu : (headed r.p t.head).fUpgrade = false := by rw [headed_eq]
  have hft : (headed r.p t.head).fTrailing = false := by rw [headed_eq]
  generalize headed r.p t.head = Q at k1 hk herr hch hfu hft
  have hHr : respCb .headersComplete (reporting Q hs1 i1 (nn + 1)) (told rF rV (rBegin r.d) t.head.headers) = (reporting Q hs1 i1 (nn + 1), rHeadL r.d noHeader t.head) :=
    resp_headL hr.field hr.value t.head _ hk.status
  obtain ⟨o1, -, -, -⟩ := head_over hL (q := Q) herr hft hfu hk.skip (hs := hs1) (i := i1) (n := nn) (by unfold maxHeaderSize; omega) hHr
  obtain ⟨q', hs', i', n', rfl, k3⟩ := ends_trailed hL (t.trailers ++ [t.last]) hw.lines hw.size hw.body t.body rfl Q hch hs1 i1 (rHeadL r.d noHeader t.head) herr
  have he := (k1.trans hL (o1 hch)).ends hL k3
  have hgl : ∀ hs : Headers, glued noHeader hs = hs := fun hs => by cases hs <;> simp [glued, noHeader]
  have hle : ∀ hs : Headers, leftBy noHeader hs = noHeader := fun hs => by cases hs <;> rfl
  have hd0 : (rB t.content (rHeadL r.d noHeader t.head)).headers = t.head.shown := hgl _
  have hd1 : (rB t.content (rHeadL r.d noHeader t.head)).hooks = r.d.hooks ++ [.begin, .headersComplete (num t.head.status) t.head.shown] := by
    show r.d.hooks ++ [.begin, .headersComplete (num t.head.status) (glued noHeader t.head.shown)] = _
    rw [hgl]
  have hd2 : (rB t.content (rHeadL r.d noHeader t.head)).content = t.content := by simp [rB, rHeadL]
  have hd3 : (rB t.content (rHeadL r.d noHeader t.head)).field = [] := by show (leftBy noHeader t.head.shown).name = []; rw [hle]; rfl
  have hd4 : (rB t.content (rHeadL r.d noHeader t.head)).value = [] := by show (leftBy noHeader t.head.shown).value = []; rw [hle]; rfl
  obtain ⟨t1, t2, t3, t4, t5⟩ := told_trailers t.trailers t.last (rB t.content (rHeadL r.d noHeader t.head)) rfl hd3 hd4
  rw [hd0] at t1
  rw [hd1] at t4
  rw [hd2] at t5
  generalize told rF rV (rB t.content (rHeadL r.d noHeader t.head)) (t.trailers ++ [t.last]) = D at he t1 t2 t3 t4 t5
  have hp2 : ∃ p2, p2 = bodyAt { Q with contentLength := 0, fTrailing := true } ({ Q with contentLength := 0, fTrailing := true } : HParser).newMessage hs' i' n' := ⟨_, rfl⟩
  obtain ⟨p2, hp2⟩ := hp2
  rw [← hp2] at he
  have hok : p2.errno = .ok := by rw [hp2]; exact herr
  have hst : p2.status = num t.head.status := by rw [hp2]; exact hk.status
  have hka : p2.shouldKeepAlive = decide t.head.Keeps := by
    refine knows_keep (by rw [hp2]; exact ⟨hk.1, hk.2, hk.3, hk.4, hk.5, hk.6⟩) (needsEof_of (Or.inl ?_))
    rw [hp2]; exact hch
  clear hp2
  have e1 : respCb .messageComplete p2 D = ({ p2 with errno := .paused }, { D with hooks := r.d.hooks ++ t.report }) := by
    show (p2.pause, ({ D with hooks := D.hooks ++ [.complete p2.status D.headers D.content] } : RespData)) = _
    rw [pause_ok hok, hst, t1, t4, t5]
    simp [Trailed.report]
  rw [e1] at he
  have hne : t.render ≠ [] := by unfold Trailed.render; simp
  have hrender : RHead.open_ t.head ++ b!"\n" ++ (t.body ++ ((t.trailers ++ [t.last]).map RHeader.render).flatten ++ b!"\r\n") = t.render := by
    unfold Trailed.render Trailed.trailerLines
    rw [open_render]; simp only [List.append_assoc]
  rw [hrender] at he
  have hx := he (hr.safe.2 (Or.inl hr.ok)) hr.ok [] 0
  rw [List.append_nil, ← execute_loop hr.ok hne] at hx
  dsimp only at hx
  have hp := hx.parser
  have hs := hx.state (by rw [hp]; exact Or.inr rfl)
  have hc := hx.consumed
  dsimp only at hp hs hc
  have hi : r.inject t.render = (⟨p2, { D with hooks := r.d.hooks ++ t.report }⟩, t.render.length) := by
    unfold RespParser.inject
    dsimp only
    rw [hp, hs, hc, if_pos rfl]
    have : ({ p2 with errno := Errno.ok } : HParser) = p2 := by rw [← hok]
    simp [this]
  refine ⟨p2, { D with hooks := r.d.hooks ++ t.report }, ?_, hok, hka, rfl, t2, t3⟩
  have hl : 0 < t.render.length := List.length_pos_iff.2 hne
  rw [deliver_cons hne (by rw [hi]; exact hl) (by rw [hi, hasError_iff]; exact Or.inl hok), hi]
  dsimp only
  rw [List.drop_length, deliver_nil]

end Pillow
