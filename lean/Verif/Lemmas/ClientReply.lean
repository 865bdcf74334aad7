import Verif.Lemmas.ClientTold
/-!
# The client on well-formed responses: segments
-/
namespace Pillow
open Spec

/-- The client between two segments. -/
structure Mid (env : ClientEnv) (L : Setting) (c : Client) (p : HParser) (t : QData) : Prop where
  parsing : c.parsing = false
  at_ : c.p = p
  ok : p.errno = .ok
  good : Good 0 p
  told : Told env L { c with parsing := true } t

/-- The client when the response has been reported. -/
structure Ended (env : ClientEnv) (L : Setting) (m : Response) (c : Client) : Prop where
  reports : Reports env (L.head = true) L.before c.log m
  pending : c.responsePending = false
  noError : c.hasError = false
  fresh : L.unread = [] → Fresh c

section
variable {env : ClientEnv} {em : Signal → Client → Client} {L : Setting} {O : List Response} (hm : EmMild L.free em) (hg : EmGrows em) (hf : EmFramed em) (hx : EmFresh em)
include hm hg hf hx

theorem inject_rel {c : Client} {p : HParser} {t : QData} (h : Mid env L c p t) (data : Bytes) :
    ExecRel (Told env L) (fun c t => Told env L c t ∨ Over env L c t) (execute (clientCb env em) p { c with parsing := true } data) (execute (quietCb env L.head) p t data) := by
  rw [execute_solid (clientCb_tame env hf) h.ok h.good]
  exact rel_execute (told_cb hm hg hf hx) (fun _ _ h => Or.inl h) h.told data

/-- A piece of a message. -/
theorem inject_part {c : Client} {p x : HParser} {t y : QData} (h : Mid env L c p t) {u v : Bytes} (he : Ends (quietCb env L.head) QRel p t (u ++ v) x y) (hu : u ≠ []) (hv : v ≠ [])
    (hxp : x.errno = .paused) : ∃ p1 t1, Mid env L (c.inject env em u).1 p1 t1 ∧ (c.inject env em u).2 = u.length ∧ Ends (quietCb env L.head) QRel p1 t1 v x y ∧ Steps (quietCb env L.head) QRel p t u p1 t1 := by
  have hp0 := h.at_
  subst hp0
  obtain ⟨p1, t1, e1, g1, k1, n1⟩ := Ends.split (quietCb_laws env L.head) he hu hv hxp h.good h.ok
  have hr := inject_rel hm hg hf hx h u
  rw [e1] at hr
  refine ⟨p1, t1, ?_, ?_, n1, steps_of_execute (quietCb_laws env L.head) hu h.good h.ok e1 g1 k1⟩
  · unfold Client.inject
    dsimp only
    have hp := hr.parser
    have ho := hr.ok (by rw [hp, k1]; simp)
    generalize execute (clientCb env em) c.p { c with parsing := true } u = r at hp ho ⊢
    dsimp only at hp ho
    rw [hp, if_neg (by rw [k1]; simp)]
    exact ⟨rfl, rfl, k1, g1, ho.same ho.parsing.symm rfl rfl rfl rfl rfl rfl rfl rfl rfl rfl rfl⟩
  · unfold Client.inject
    dsimp only
    exact hr.consumed

/-- The rest of a message. -/
theorem inject_whole {c : Client} {p x : HParser} {t y : QData} (h : Mid env L c p t) {v : Bytes} (he : Ends (quietCb env L.head) QRel p t v x y) (hv : v ≠ [])
    (hxp : x.errno = .paused) (rest : Bytes) : (c.inject env em (v ++ rest)).2 = v.length ∧ (c.inject env em (v ++ rest)).1.p = { x with errno := .ok } ∧ (c.inject env em (v ++ rest)).1.parsing = false ∧
      (Told env L { (c.inject env em (v ++ rest)).1 with parsing := true } y ∨ Over env L (c.inject env em (v ++ rest)).1 y) := by
  have hp0 := h.at_
  subst hp0
  have e1 := Ends.whole he hv hxp h.good h.ok rest
  have hr := inject_rel hm hg hf hx h (v ++ rest)
  rw [e1] at hr
  unfold Client.inject
  dsimp only
  have hp := hr.parser
  have ha := hr.any
  have hc := hr.consumed
  generalize execute (clientCb env em) c.p { c with parsing := true } (v ++ rest) = r at hp ha hc ⊢
  dsimp only at hp ha hc
  rw [hp, if_pos hxp]
  refine ⟨hc, rfl, rfl, ?_⟩
  rcases ha with ha | ha
  · exact Or.inl (ha.same ha.parsing.symm rfl rfl rfl rfl rfl rfl rfl rfl rfl rfl rfl)
  · obtain ⟨st, hs, l1, ct, l2, h5, h6, h7, h8, h9, h10⟩ := ha
    exact Or.inr ⟨st, hs, l1, ct, l2, h5, h6, h7, h8, fun f0 f1 f2 => (h9 f0 f1 f2).same rfl rfl rfl (Or.inl rfl) (Or.inl h8), h10⟩

/-- The rest of an interim response. -/
theorem inject_interim {c : Client} {p : HParser} {t : QData} (h : Mid env L c p t) {v : Bytes} (he : Inter env L.head p t v) (rest : Bytes) :
    (c.inject env em (v ++ rest)).2 = v.length ∧ ∃ p1 t1, Mid env L (c.inject env em (v ++ rest)).1 p1 t1 ∧ Await p1 t1 := by
  obtain ⟨hv, x, y, he, hxp, ha⟩ := he
  obtain ⟨h1, h2, h3, h4⟩ := inject_whole hm hg hf hx h he hv hxp rest
  refine ⟨h1, _, y, ⟨h3, h2, rfl, ha.good, ?_⟩, ha⟩
  rcases h4 with h4 | ⟨st, hs, l1, ct, l2, h5, -⟩
  · exact h4
  · rw [ha.fin] at h5; cases h5

/-- The final response, of which `v` is missing. -/
def Last (env : ClientEnv) (hd : Bool) (m : Response) (p : HParser) (t : QData) (v : Bytes) : Prop :=
  (hd = false ∧ Final env m p t v) ∨ (hd = true ∧ m.content = [] ∧ FinalHead env m p t v)

omit hm hg hf hx in
theorem Last.ne {hd : Bool} {m : Response} {p : HParser} {t : QData} {v : Bytes} (h : Last env hd m p t v) : v ≠ [] := by
  rcases h with ⟨-, h⟩ | ⟨-, -, w, x, y, rfl, -⟩
  · exact h.1
  · simp

omit hm hg hf hx in
/-- What the application has seen when the response is over. -/
theorem over_ended {c : Client} {y : QData} {m : Response} (h : Over env L c y) (herr : c.hasError = false) (y1 : y.fin = some (num m.head.status, m.head.shown))
    (y2 : y.sig = [.headersCompleted (num m.head.status) m.head.shown]) (y3 : (y.gz = (env.inflate.isSome && gzipped m.head.shown) ∧ L.head = false) ∨ (y.gz = false ∧ L.head = true)) (y4 : y.odd = false)
    (y5 : y.d.content = m.content) (y6 : y.d.field = []) (y7 : y.d.value = []) : Ended env L m c := by
  obtain ⟨st, hs, l1, ct, l2, h5, h6, h7, h8, h8', h9⟩ := h
  rw [y1] at h5
  cases h5
  rcases h9 with h9 | ⟨all, z1, z2, z3⟩
  · rw [y4] at h9; cases h9
  · refine ⟨⟨l1, ct, l2, all, h6, h7.trans y2, z1, z2, ?_⟩, h8, herr, fun f0 => h8' f0 y6 y7⟩
    rw [y5] at z3
    unfold Shown
    rw [← gzipped_iff]
    rcases y3 with ⟨y3, y3'⟩ | ⟨y3, y3'⟩
    · rw [y3] at z3
      rcases z3 with ⟨w1, w2⟩ | ⟨w1, f, blocks, w2, w3, w4⟩
      · refine ⟨fun hz inflate hi => ?_, fun _ => w2⟩
        rw [hi, hz.1] at w1
        cases w1
      · simp only [Bool.and_eq_true] at w1
        refine ⟨fun hz inflate hi => ?_, fun hz => ?_⟩
        · rw [w2] at hi
          cases hi
          exact ⟨blocks, w3, w4⟩
        · rcases hz with hz | hz | hz
          · exact absurd w1.2 hz
          · rw [hz] at w2; cases w2
          · rw [y3'] at hz; cases hz
    · rw [y3] at z3
      rcases z3 with ⟨w1, w2⟩ | ⟨w1, -⟩
      · exact ⟨fun hx => absurd y3' hx.2, fun _ => w2⟩
      · cases w1

/-- The rest of the final response. -/
theorem inject_final {c : Client} {p : HParser} {t : QData} (h : Mid env L c p t) {v : Bytes} {m : Response} (he : Last env L.head m p t v) (rest : Bytes) :
    Ended env L m (c.inject env em (v ++ rest)).1 := by
  rcases he with ⟨hd, hv, x, y, he, hxp, y1, y2, y3, y4, y5, y6, y7⟩ | ⟨hd, hm0, w, x, y, rfl, hxp, ⟨p1, t1, k1, k2⟩, y1, y2, y3, y4, y5, y6, y7⟩
  · rw [← hd] at he
    obtain ⟨h1, h2, h3, h4⟩ := inject_whole hm hg hf hx h he hv hxp rest
    have herr : (c.inject env em (v ++ rest)).1.hasError = false := by
      unfold Client.hasError
      rw [h2]
      rfl
    rcases h4 with h4 | h4
    · have := h4.fin.1
      rw [y1] at this; cases this
    · exact over_ended h4 herr y1 y2 (Or.inl ⟨y3, hd⟩) y4 y5 y6 y7
  · have hp0 := h.at_
    subst hp0
    rw [← hd] at k1 k2
    have e1 : execute (quietCb env L.head) c.p t (w ++ b!"\n" ++ rest) = (x, y, w.length) := by
      rw [execute_loop h.ok (by simp), List.append_assoc]
      obtain ⟨-, -, k3⟩ := k1 h.good h.ok
      have k4 := k3 (b!"\n" ++ rest) 0
      rw [k2] at k4
      have q1 := k4.parser
      have q2 := k4.state (by rw [q1]; exact Or.inr hxp)
      have q3 := k4.consumed
      generalize execLoop (quietCb env L.head) c.p t (fresh c.p) (w ++ (b!"\n" ++ rest)) 0 = r at q1 q2 q3
      obtain ⟨a, b, n⟩ := r
      dsimp only at q1 q2 q3
      rw [q1, q2, q3, Nat.zero_add]
    have hr := inject_rel hm hg hf hx h (w ++ b!"\n" ++ rest)
    rw [e1] at hr
    have hov : Over env L (c.inject env em (w ++ b!"\n" ++ rest)).1 y ∧ (c.inject env em (w ++ b!"\n" ++ rest)).1.hasError = false := by
      unfold Client.inject
      dsimp only
      have hp := hr.parser
      have ha := hr.any
      generalize execute (clientCb env em) c.p { c with parsing := true } (w ++ b!"\n" ++ rest) = r at hp ha ⊢
      dsimp only at hp ha
      rw [hp, if_pos hxp]
      refine ⟨?_, rfl⟩
      rcases ha with ha | ha
      · have := ha.fin.1
        rw [y1] at this; cases this
      · obtain ⟨st, hs, l1, ct, l2, h5, h6, h7, h8, h9, h10⟩ := ha
        exact ⟨st, hs, l1, ct, l2, h5, h6, h7, h8, fun f0 f1 f2 => (h9 f0 f1 f2).same rfl rfl rfl (Or.inl rfl) (Or.inl h8), h10⟩
    exact over_ended hov.1 hov.2 y1 y2 (Or.inr ⟨y3, hd⟩) y4 (y5.trans hm0.symm) y6 y7

/-- A piece of the final response. -/
theorem inject_final_part {c : Client} {p : HParser} {t : QData} (h : Mid env L c p t) {u v : Bytes} {m : Response} (he : Last env L.head m p t (u ++ v)) (hu : u ≠ []) (hv : v ≠ []) :
    ∃ p1 t1, Mid env L (c.inject env em u).1 p1 t1 ∧ (c.inject env em u).2 = u.length ∧ Last env L.head m p1 t1 v ∧ Steps (quietCb env L.head) QRel p t u p1 t1 := by
  rcases he with ⟨hd, -, x1, y1, k1, k2, k3⟩ | ⟨hd, hm0, w, x, y, e, hxp, ⟨p1, t1, k1, k2⟩, k3⟩
  · rw [← hd] at k1
    obtain ⟨p1, t1, m1, m2, m3, m4⟩ := inject_part hm hg hf hx h k1 hu hv k2
    rw [hd] at m3
    exact ⟨p1, t1, m1, m2, Or.inl ⟨hd, hv, x1, y1, m3, k2, k3⟩, m4⟩
  · have hp0 := h.at_
    subst hp0
    obtain ⟨v', rfl⟩ : ∃ v', v = v' ++ b!"\n" := by
      rcases List.eq_nil_or_concat v with e1 | ⟨v', z, e1⟩
      · exact absurd e1 hv
      · refine ⟨v', ?_⟩
        rw [List.concat_eq_append] at e1
        rw [e1, ← List.append_assoc] at e
        rw [e1]
        have := List.append_inj_right' e rfl
        rw [this]
    rw [← List.append_assoc] at e
    have e := List.append_inj_left' e rfl
    subst e
    rw [← hd] at k1 k2
    obtain ⟨p2, t2, e1, g1, o1, n1⟩ := Steps.split (quietCb_laws env L.head) k1 hu h.good h.ok
    have hr := inject_rel hm hg hf hx h u
    rw [e1] at hr
    refine ⟨p2, t2, ?_, ?_, Or.inr ⟨hd, hm0, v', x, y, rfl, hxp, ⟨p1, t1, by rw [hd] at n1; exact n1, by rw [hd] at k2; exact k2⟩, k3⟩, steps_of_execute (quietCb_laws env L.head) hu h.good h.ok e1 g1 o1⟩
    · unfold Client.inject
      dsimp only
      have hp := hr.parser
      have ho := hr.ok (by rw [hp, o1]; simp)
      generalize execute (clientCb env em) c.p { c with parsing := true } u = r at hp ho ⊢
      dsimp only at hp ho
      rw [hp, if_neg (by rw [o1]; simp)]
      exact ⟨rfl, rfl, o1, g1, ho.same ho.parsing.symm rfl rfl rfl rfl rfl rfl rfl rfl rfl rfl rfl⟩
    · unfold Client.inject
      dsimp only
      exact hr.consumed

omit hm hg hf hx in
theorem reports_grow {env : ClientEnv} {hd : Prop} {L k k' : List CEv} {m : Response} (h : Reports env hd L k m) (hk : k <+: k') : Reports env hd L k' m := by
  obtain ⟨l1, ct, l2, all, h1, h2⟩ := h
  obtain ⟨w, rfl⟩ := hk
  exact ⟨l1, ct, l2 ++ w, all, by rw [h1]; simp, h2⟩

omit hm hx in
/-- Nothing in `device_readyRead` takes anything back. -/
theorem receive_first (c : Client) (data : Bytes) : (c.inject env em data).1.log <+: (c.receive env em data).log := by
  unfold Client.receive
  dsimp only
  generalize (c.inject env em data).2 = n
  generalize (c.inject env em data).1 = c1
  generalize hc2 : (if c1.responsePending then _ else _ : Client) = c2
  have h2 : c1.log <+: c2.log := by
    subst hc2
    split
    · have h3 : c1.log <+: (if !c1.hasError && decide (n < data.length) then (c1.inject env em (data.drop n)).1 else c1 : Client).log := by
        split
        · exact inject_log hg hf env c1 _
        · exact List.prefix_refl _
      generalize (if !c1.hasError && decide (n < data.length) then (c1.inject env em (data.drop n)).1 else c1 : Client) = c3 at h3 ⊢
      split
      · refine h3.trans (List.IsPrefix.trans ?_ (pre (hg _ _)))
        exact List.prefix_append _ _
      · exact h3
    · exact List.prefix_refl _
  refine h2.trans ?_
  split
  · exact makeRequest_log hg { c2 with pendingRequest := {} } _
  · exact List.prefix_refl _

omit hm hg hf in
/-- After the response, a request that was made meanwhile is sent. -/
theorem receive_first_fresh {c : Client} {data : Bytes} (hp : (c.inject env em data).1.responsePending = false) (h : Fresh (c.inject env em data).1) : Fresh (c.receive env em data) := by
  unfold Client.receive
  dsimp only
  generalize (c.inject env em data).2 = n
  generalize (c.inject env em data).1 = c1 at hp h ⊢
  have hn : ¬ c1.responsePending = true := by simp [hp]
  rw [if_neg hn]
  split
  · exact makeRequest_fresh hx (c := { c1 with pendingRequest := {} }) (h.same rfl rfl rfl (Or.inl rfl) (Or.inl hp)) _
  · exact h

omit hm hg hf hx in
theorem mid_noError {c : Client} {p : HParser} {t : QData} (h : Mid env L c p t) : c.hasError = false := by
  unfold Client.hasError
  rw [h.at_, h.ok]
  rfl

omit hm hg hf hx in
theorem mid_pending {c : Client} {p : HParser} {t : QData} (h : Mid env L c p t) : c.responsePending = true := h.told.pending

omit hm hg hf hx in
/-- When all of a segment has been parsed. -/
theorem receive_all {c : Client} {p : HParser} {t : QData} {data : Bytes} (h : Mid env L (c.inject env em data).1 p t) (hn : (c.inject env em data).2 = data.length) :
    c.receive env em data = (c.inject env em data).1 := by
  unfold Client.receive
  dsimp only
  rw [hn]
  generalize (c.inject env em data).1 = c1 at h ⊢
  have h1 := mid_noError h
  have h2 := mid_pending h
  simp [h1, h2]

omit hm hg hf hx in
/-- When an interim response has been parsed, and there is more. -/
theorem receive_more {c : Client} {p : HParser} {t : QData} {data : Bytes} (h : Mid env L (c.inject env em data).1 p t) (hn : (c.inject env em data).2 < data.length) :
    c.receive env em data = let c := ((c.inject env em data).1.inject env em (data.drop (c.inject env em data).2)).1
      (let c := if c.hasError then em .finished { (c.add .close) with error := .responseInvalid, sock := c.sock.close, responsePending := false } else c;
      if !c.responsePending && c.pendingRequest.method.isSome then { c with pendingRequest := {} }.makeRequest em c.pendingRequest else c) := by
  unfold Client.receive
  dsimp only
  generalize (c.inject env em data).2 = n at hn ⊢
  generalize (c.inject env em data).1 = c1 at h ⊢
  have h1 := mid_noError h
  have h2 := mid_pending h
  have h3 : (!c1.hasError && decide (n < data.length)) = true := by simp [h1, hn]
  simp only [h2, h3, if_true]

omit hm hf hx in
theorem receive_second {c : Client} {p : HParser} {t : QData} {data : Bytes} (h : Mid env L (c.inject env em data).1 p t) (hn : (c.inject env em data).2 < data.length) :
    ((c.inject env em data).1.inject env em (data.drop (c.inject env em data).2)).1.log <+: (c.receive env em data).log := by
  rw [receive_more h hn]
  dsimp only
  generalize ((c.inject env em data).1.inject env em (data.drop (c.inject env em data).2)).1 = c2
  generalize hc3 : (if c2.hasError then _ else _ : Client) = c3
  have h3 : c2.log <+: c3.log := by
    subst hc3
    split
    · refine List.IsPrefix.trans ?_ (pre (hg _ _))
      exact List.prefix_append _ _
    · exact List.prefix_refl _
  refine h3.trans ?_
  split
  · exact makeRequest_log hg { c3 with pendingRequest := {} } _
  · exact List.prefix_refl _

omit hm hg hf in
theorem receive_second_fresh {c : Client} {p : HParser} {t : QData} {data : Bytes} (h : Mid env L (c.inject env em data).1 p t) (hn : (c.inject env em data).2 < data.length)
    (hp : ((c.inject env em data).1.inject env em (data.drop (c.inject env em data).2)).1.responsePending = false)
    (he : ((c.inject env em data).1.inject env em (data.drop (c.inject env em data).2)).1.hasError = false)
    (hfr : Fresh ((c.inject env em data).1.inject env em (data.drop (c.inject env em data).2)).1) : Fresh (c.receive env em data) := by
  rw [receive_more h hn]
  dsimp only
  generalize ((c.inject env em data).1.inject env em (data.drop (c.inject env em data).2)).1 = c2 at hp he hfr ⊢
  simp only [he, Bool.false_eq_true, if_false]
  split
  · exact makeRequest_fresh hx (c := { c2 with pendingRequest := {} }) (hfr.same rfl rfl rfl (Or.inl rfl) (Or.inl hp)) _
  · exact hfr

omit hm hg hf hx in
theorem receive_second_all {c : Client} {p p' : HParser} {t t' : QData} {data : Bytes} (h : Mid env L (c.inject env em data).1 p t) (hn : (c.inject env em data).2 < data.length)
    (h' : Mid env L ((c.inject env em data).1.inject env em (data.drop (c.inject env em data).2)).1 p' t') :
    c.receive env em data = ((c.inject env em data).1.inject env em (data.drop (c.inject env em data).2)).1 := by
  rw [receive_more h hn]
  dsimp only
  generalize ((c.inject env em data).1.inject env em (data.drop (c.inject env em data).2)).1 = c2 at h' ⊢
  have h1 := mid_noError h'
  have h2 := mid_pending h'
  simp [h1, h2]

/-! ## Where the responses stand -/

/-- A response to a HEAD request, or another one. -/
def Fits (hd : Bool) (m : Response) : Prop := match hd with | false => m.Wf | true => m.head.Wf ∧ m.wire = [] ∧ m.content = []


/-- The message `w` of which `v` is missing: what of it has led here. -/
def Trail (env : ClientEnv) (hd : Bool) (w : Bytes) (p : HParser) (t : QData) (v : Bytes) : Prop :=
  ∃ p0 t0 passed, Await p0 t0 ∧ Steps (quietCb env hd) QRel p0 t0 passed p t ∧ w = passed ++ v

omit hm hg hf hx in
theorem Trail.next {hd : Bool} {w : Bytes} {p p1 : HParser} {t t1 : QData} {u v : Bytes} (h : Trail env hd w p t (u ++ v)) (hs : Steps (quietCb env hd) QRel p t u p1 t1) : Trail env hd w p1 t1 v := by
  obtain ⟨p0, t0, passed, h1, h2, h3⟩ := h
  exact ⟨p0, t0, passed ++ u, h1, h2.trans (quietCb_laws env hd) hs, by rw [h3, List.append_assoc]⟩

omit hm hg hf hx in
theorem Await.trail {p : HParser} {t : QData} (h : Await p t) (hd : Bool) (w : Bytes) : Trail env hd w p t w := ⟨p, t, [], h, Steps.nil (quietCb_laws env hd) _ _, rfl⟩

/-- The interim responses (from `O`) of which the beginning `v` … are missing, and then the final one. -/
inductive Pos (env : ClientEnv) (hd : Bool) (m : Response) (O : List Response) (p : HParser) (t : QData) : List Bytes → Bytes → Prop where
  | final (v : Bytes) : Last env hd m p t v → Trail env hd m.render p t v → Pos env hd m O p t [] v
  | interim (v : Bytes) (i : Response) (is : List Response) : Inter env hd p t v → Trail env hd i.render p t v → i ∈ O → (∀ i ∈ is, Interim i ∧ i ∈ O) → Pos env hd m O p t (v :: is.map Response.render) m.render

omit hm hg hf hx in
theorem await_pos {hd : Bool} {m : Response} (hw : Fits hd m) (hs : num m.head.status ≠ 100) {p : HParser} {t : QData} (h : Await p t) (is : List Response) (hi : ∀ i ∈ is, Interim i ∧ i ∈ O) :
    Pos env hd m O p t (is.map Response.render) m.render := by
  cases is with
  | nil =>
    refine .final _ ?_ (h.trail hd _)
    cases hd with
    | false => exact Or.inl ⟨rfl, final_await env h hw hs⟩
    | true => exact Or.inr ⟨rfl, hw.2.2, finalHead_await env h hw.1 hs hw.2.1⟩
  | cons i is => exact .interim _ i is (inter_await env hd h (hi i (by simp)).1) (h.trail hd _) (hi i (by simp)).2 fun j hj => hi j (by simp [hj])

/-- The segment ends in the middle of a message or between two, and what remains is … -/
def Left (segs : List Bytes) (s : Bytes) (is is' : List Bytes) (v v' rest : Bytes) : Prop :=
  (s :: segs).flatten = is.flatten ++ v ++ rest ∧ segs.flatten = is'.flatten ++ v' ++ rest

/-- The condition on the segments, for what remains. -/
def Cut (is : List Bytes) (segs : List Bytes) : Prop :=
  ∀ before b₁ b₂ after, is = before ++ b₁ :: b₂ :: after → ∃ a b, segs = a ++ b ∧ (before ++ [b₁]).flatten.length ≤ a.flatten.length ∧ a.flatten.length ≤ (before ++ [b₁, b₂]).flatten.length

omit hm hg hf hx in
theorem Cut.next {done more : List Bytes} {x y s : Bytes} {segs : List Bytes} (h : Cut (done ++ (x ++ y) :: more) (s :: segs)) (hs : s.length = done.flatten.length + x.length) (hn : 0 < s.length) (hy : y ≠ []) :
    Cut (y :: more) segs := by
  have hy : 0 < y.length := List.length_pos_iff.2 hy
  intro before b1 b2 after e
  cases before with
  | nil =>
    rw [List.nil_append] at e
    injection e with e1 e2
    subst e1 e2
    obtain ⟨a, b, k1, k2, k3⟩ := h done (x ++ y) b2 after rfl
    simp only [List.flatten_append, List.length_append, List.flatten_cons, List.flatten_nil, List.length_nil] at k2 k3
    cases a with
    | nil => simp only [List.flatten_nil, List.length_nil] at k2; omega
    | cons z a =>
      simp only [List.cons_append, List.cons.injEq] at k1
      obtain ⟨rfl, rfl⟩ := k1
      simp only [List.flatten_cons, List.length_append] at k2 k3
      exact ⟨a, b, rfl, by simp only [List.flatten_append, List.length_append, List.flatten_cons, List.flatten_nil, List.length_nil, List.nil_append, List.cons_append]; omega, by simp only [List.flatten_append, List.length_append, List.flatten_cons, List.flatten_nil, List.length_nil, List.nil_append, List.cons_append]; omega⟩
  | cons z before =>
    simp only [List.cons_append, List.cons.injEq] at e
    obtain ⟨rfl, rfl⟩ := e
    obtain ⟨a, b, k1, k2, k3⟩ := h (done ++ (x ++ y) :: before) b1 b2 after (by simp)
    simp only [List.flatten_append, List.length_append, List.flatten_cons, List.flatten_nil, List.length_nil] at k2 k3
    cases a with
    | nil => simp only [List.flatten_nil, List.length_nil] at k2; omega
    | cons z a =>
      simp only [List.cons_append, List.cons.injEq] at k1
      obtain ⟨rfl, rfl⟩ := k1
      simp only [List.flatten_cons, List.length_append] at k2 k3
      exact ⟨a, b, rfl, by simp only [List.flatten_append, List.length_append, List.flatten_cons, List.flatten_nil, List.length_nil, List.nil_append, List.cons_append]; omega, by simp only [List.flatten_append, List.length_append, List.flatten_cons, List.flatten_nil, List.length_nil, List.nil_append, List.cons_append]; omega⟩

omit hm hg hf hx in
theorem cut_short {is : List Bytes} {segs : List Bytes} (h : is.length ≤ 1) : Cut is segs := by
  intro before b1 b2 after e
  have := congrArg List.length e
  simp at this
  omega


omit hm hg hf hx in
theorem split_cases {a b c d : Bytes} (h : a ++ b = c ++ d) : (∃ x, c = a ++ x ∧ x ≠ []) ∨ (∃ x, a = c ++ x ∧ d = x ++ b) := by
  rcases List.append_eq_append_iff.1 h with ⟨x, h1, h2⟩ | ⟨x, h1, h2⟩
  · cases x with
    | nil => exact Or.inr ⟨[], by simpa using h1.symm, by simpa using h2.symm⟩
    | cons y x => exact Or.inl ⟨y :: x, h1, by simp⟩
  · exact Or.inr ⟨x, h1, h2⟩

/-- One call of `inject`: the data ends within a message, or the final response is complete, or an interim one is. -/
theorem inject_step {c : Client} {p : HParser} {t : QData} (h : Mid env L c p t) {m : Response} {is : List Bytes} {v : Bytes} (hp : Pos env L.head m O p t is v) {s more rest : Bytes}
    (hs : s ≠ []) (he : s ++ more = is.flatten ++ v ++ rest) :
    (∃ p1 t1 is1 v1, Mid env L (c.inject env em s).1 p1 t1 ∧ (c.inject env em s).2 = s.length ∧ Pos env L.head m O p1 t1 is1 v1 ∧ more = is1.flatten ++ v1 ++ rest ∧
      ((is = [] ∧ is1 = []) ∨ ∃ b tl, is = (s ++ b) :: tl ∧ is1 = b :: tl ∧ b ≠ [])) ∨
    (Ended env L m (c.inject env em s).1 ∧ ∃ x, rest = x ++ more) ∨
    (∃ b tl w p1 t1, is = b :: tl ∧ s = b ++ w ∧ b ≠ [] ∧ v = m.render ∧ (∃ is' : List Response, tl = is'.map Response.render ∧ ∀ i ∈ is', Interim i ∧ i ∈ O) ∧ (c.inject env em s).2 = b.length ∧
      Mid env L (c.inject env em s).1 p1 t1 ∧ Await p1 t1 ∧ w ++ more = tl.flatten ++ v ++ rest) := by
  cases hp with
  | final v hv htr =>
    rw [List.flatten_nil, List.nil_append] at he
    rcases split_cases he with ⟨x, rfl, hxn⟩ | ⟨x, rfl, h2⟩
    · obtain ⟨p1, t1, m1, m2, m3, m4⟩ := inject_final_part hm hg hf hx h hv hs hxn
      refine Or.inl ⟨p1, t1, [], x, m1, m2, .final _ m3 (htr.next m4), ?_, Or.inl ⟨rfl, rfl⟩⟩
      rw [List.append_assoc] at he
      exact List.append_cancel_left he
    · exact Or.inr (Or.inl ⟨inject_final hm hg hf hx h hv x, x, h2⟩)
  | interim b i0 is hv htr h0 hi =>
    rw [List.flatten_cons, List.append_assoc, List.append_assoc] at he
    rcases split_cases he with ⟨x, rfl, hxn⟩ | ⟨x, rfl, h2⟩
    · obtain ⟨-, x1, y1, k1, k2, k3⟩ := hv
      obtain ⟨p1, t1, m1, m2, m3, m4⟩ := inject_part hm hg hf hx h k1 hs hxn k2
      refine Or.inl ⟨p1, t1, _, _, m1, m2, .interim x i0 is ⟨hxn, x1, y1, m3, k2, k3⟩ (htr.next m4) h0 hi, ?_, Or.inr ⟨x, _, rfl, rfl, hxn⟩⟩
      rw [List.append_assoc] at he
      rw [List.flatten_cons, List.append_assoc, List.append_assoc]
      exact List.append_cancel_left he
    · obtain ⟨k1, p1, t1, k2, k3⟩ := inject_interim hm hg hf hx h hv x
      exact Or.inr (Or.inr ⟨b, _, x, p1, t1, rfl, rfl, hv.1, rfl, ⟨is, rfl, hi⟩, k1, k2, k3, by rw [← h2, List.append_assoc]⟩)

/-- One segment. -/
theorem receive_segment {c : Client} {p : HParser} {t : QData} (h : Mid env L c p t) {m : Response} (hw : Fits L.head m) (hst : num m.head.status ≠ 100) {is : List Bytes} {v : Bytes}
    (hp : Pos env L.head m O p t is v) {s rest : Bytes} {segs : List Bytes} (hs : s ≠ []) (he : s ++ segs.flatten = is.flatten ++ v ++ rest) (hc : Cut is (s :: segs)) :
    (∃ p1 t1 is1 v1, Mid env L (c.receive env em s) p1 t1 ∧ Pos env L.head m O p1 t1 is1 v1 ∧ segs.flatten = is1.flatten ++ v1 ++ rest ∧ Cut is1 segs ∧ is1.length ≤ is.length) ∨ (Reports env (L.head = true) L.before (c.receive env em s).log m ∧ (L.unread = [] → Fresh (c.receive env em s)) ∧ ∃ x, rest = x ++ segs.flatten) := by
  have hsl : 0 < s.length := List.length_pos_iff.2 hs
  rcases inject_step hm hg hf hx h hp hs he with ⟨p1, t1, is1, v1, m1, m2, m3, m4, m5⟩ | ⟨hr, hre⟩ | ⟨b, tl, w, p1, t1, rfl, rfl, hb, rfl, ⟨is', rfl, hi⟩, m2, m3, m4, m5⟩
  · rw [receive_all m1 m2]
    refine Or.inl ⟨p1, t1, is1, v1, m1, m3, m4, ?_⟩
    rcases m5 with ⟨rfl, rfl⟩ | ⟨b, tl, rfl, rfl, hb⟩
    · exact ⟨cut_short (by simp), Nat.le_refl _⟩
    · exact ⟨Cut.next (done := []) (x := s) hc (by simp) hsl hb, Nat.le_refl _⟩
  · exact Or.inr ⟨reports_grow hr.reports (receive_first hg hf c s), fun f0 => receive_first_fresh hx hr.pending (hr.fresh f0), hre⟩
  · by_cases hwn : w = []
    · subst hwn
      rw [receive_all m3 (by rw [m2, List.append_nil])]
      refine Or.inl ⟨p1, t1, _, _, m3, await_pos hw hst m4 is' hi, m5, ?_⟩
      refine ⟨?_, by simp⟩
      cases is' with
      | nil => exact cut_short (by simp)
      | cons i is' => exact Cut.next (done := [b]) (x := []) hc (by simp) hsl (render_ne i)
    · have hlt : (c.inject env em (b ++ w)).2 < (b ++ w).length := by
        rw [m2, List.length_append]
        have := List.length_pos_iff.2 hwn
        omega
      have hdrop : (b ++ w).drop (c.inject env em (b ++ w)).2 = w := by rw [m2]; simp
      have hmid := m3
      have hsec := receive_second hg m3 hlt
      have hfin := receive_second_fresh hx m3 hlt
      have hall := @receive_second_all env em L c p1 (t := t1) (data := b ++ w)
      rw [hdrop] at hsec hall hfin
      generalize hc1 : (c.inject env em (b ++ w)).1 = c1 at m3 hsec hall hmid hfin
      rcases inject_step hm hg hf hx m3 (await_pos hw hst m4 is' hi) hwn m5 with ⟨p2, t2, is2, v2, n1, n2, n3, n4, n5⟩ | ⟨hr, hre⟩ | ⟨b', tl, w', p2, t2, n1, rfl, hb', -, ⟨is2, rfl, hi2⟩, n2, n3, n4, n5⟩
      · rw [hall _ _ hmid hlt n1]
        refine Or.inl ⟨p2, t2, is2, v2, n1, n3, n4, ?_⟩
        rcases n5 with ⟨-, rfl⟩ | ⟨y, tl, e1, rfl, hy⟩
        · exact ⟨cut_short (by simp), by simp⟩
        · rw [e1] at hc ⊢
          exact ⟨Cut.next (done := [b]) (x := w) hc (by simp) hsl hy, by simp⟩
      · exact Or.inr ⟨reports_grow hr.reports hsec, fun f0 => hfin hr.pending hr.noError (hr.fresh f0), hre⟩
      · by_cases hwn' : w' = []
        · subst hwn'
          rw [hall _ _ hmid hlt n3]
          refine Or.inl ⟨p2, t2, _, _, n3, await_pos hw hst n4 is2 hi2, n5, ?_⟩
          rw [n1] at hc ⊢
          refine ⟨?_, by simp; omega⟩
          cases is2 with
          | nil => exact cut_short (by simp)
          | cons i is2 => exact Cut.next (done := [b, b']) (x := []) hc (by simp) hsl (render_ne i)
        · exfalso
          rw [n1] at hc
          obtain ⟨a, z, k1, k2, k3⟩ := hc [] b b' _ rfl
          have := List.length_pos_iff.2 hwn'
          have := List.length_pos_iff.2 hb
          simp only [List.flatten_append, List.length_append, List.flatten_cons, List.flatten_nil, List.length_nil, List.nil_append, List.cons_append] at k2 k3
          cases a with
          | nil => simp only [List.flatten_nil, List.length_nil] at k2; omega
          | cons q a =>
            simp only [List.cons_append, List.cons.injEq] at k1
            obtain ⟨rfl, rfl⟩ := k1
            simp only [List.flatten_cons, List.length_append] at k2 k3
            omega

end

section
variable {O : List Response}

theorem mid_call {env : ClientEnv} {fuel : Nat} {L : Setting} {c : Client} {p : HParser} {t : QData} (h : Mid env L c p t) {u : UserCall} (hu : UserCall.Mellow L.free u) :
    Mid env L (c.step env fuel (.call u)) p t := by
  have hmild := call_mild env (em := Client.emit env fuel) (mid_pending h) hu
  have hp : (c.step env fuel (.call u)).parsing = false := hmild.parsing.trans h.parsing
  refine ⟨hp, hmild.p.trans h.at_, h.ok, h.good, ?_⟩
  have hm2 : Mild L.free { c with parsing := true } { (c.step env fuel (.call u)) with parsing := true } :=
    ⟨hmild.log, hmild.p, rfl, hmild.pending, hmild.error, hmild.request, hmild.decoder, hmild.state, hmild.rx, hmild.size, hmild.field, hmild.value, hmild.last, hmild.headers, hmild.onHeaders, hmild.onContent⟩
  exact h.told.mild hm2

/-- Harmless inputs do not change where the client stands. -/
theorem mid_harmless {env : ClientEnv} {fuel : Nat} {L : Setting} (hu : L.unread = []) {c : Client} {p : HParser} {t : QData} (h : Mid env L c p t) {i : CInput} (hi : Harmless i) : Mid env L (c.step env fuel i) p t := by
  have hrr : ∀ c, Mid env L c p t → Mid env L (c.readyRead env (Client.emit env fuel)) p t := by
    intro c h
    unfold Client.readyRead
    rw [if_neg (by simp [mid_pending h]), if_pos (by rw [show c.sock.rx = [] from h.told.rx.trans hu]; rfl)]
    exact h
  cases i with
  | call u =>
    exact mid_call h (mellow_calm hi _)
  | connected =>
    show Mid env L (if c.sock.state = .connecting then _ else c) p t
    rw [if_neg (by rw [show c.sock.state = .connected from h.told.state]; simp)]
    exact h
  | error rc => exact hi.elim
  | arrive bs => exact hi.elim
  | readyRead => exact hrr c h
  | disconnected => exact hi.elim
  | unsent b => exact ⟨h.parsing, h.at_, h.ok, h.good, h.told.same rfl rfl rfl rfl rfl rfl rfl rfl rfl rfl rfl rfl⟩
  | timeout =>
    show Mid env L (if c.timers = 0 then c else { c with timers := c.timers - 1 }.readyRead env (Client.emit env fuel)) p t
    split
    · exact h
    · exact hrr _ ⟨h.parsing, h.at_, h.ok, h.good, h.told.same rfl rfl rfl rfl rfl rfl rfl rfl rfl rfl rfl rfl⟩
  | tick ms => exact ⟨h.parsing, h.at_, h.ok, h.good, h.told.same rfl rfl rfl rfl rfl rfl rfl rfl rfl rfl rfl rfl⟩

theorem readyRead_full {env : ClientEnv} {em : Signal → Client → Client} {c : Client} (hp : c.responsePending = true) (hr : c.sock.readBufferSize = 0) :
    c.readyRead env em = if c.sock.rx = [] then c else Client.receive env em c.sock.rx { c with sock := { c.sock with rx := [] } } := by
  have h1 : ¬ (!c.responsePending) = true := by simp [hp]
  have h2 : ¬ c.sock.readBufferSize > 0 := by omega
  unfold Client.readyRead
  simp only [if_neg h1, if_neg h2, List.drop_length, List.take_length]
  by_cases hs : c.sock.rx = []
  · rw [if_pos hs, if_pos (by rw [hs]; rfl)]
  · have hl : ¬ c.sock.rx.length = 0 := by simpa using hs
    rw [if_neg hs, if_neg hl, if_neg hl]

/-- A segment arrives. -/
theorem mid_arrive {env : ClientEnv} {fuel : Nat} {L : Setting} {c : Client} {p : HParser} {t : QData} (h : Mid env L c p t) (hu : L.unread = []) (hfree : L.free = false) {s : Bytes} :
    (c.step env fuel (.arrive s)).step env fuel .readyRead = if s = [] then c else c.receive env (Client.emit env fuel) s := by
  have hst : c.sock.state = .connected := h.told.state
  have hrx : c.sock.rx = [] := h.told.rx.trans hu
  have hrb : c.sock.readBufferSize = 0 := h.told.unlimited hfree
  have h1 : c.step env fuel (.arrive s) = { c with sock := { c.sock with rx := s } } := by
    show (if c.sock.state = .connected ∨ c.sock.state = .closing then { c with sock := { c.sock with rx := c.sock.rx ++ s } } else c) = _
    rw [if_pos (Or.inl hst), hrx, List.nil_append]
  rw [h1]
  show Client.readyRead env (Client.emit env fuel) { c with sock := { c.sock with rx := s } } = _
  have hpd := mid_pending h
  have hc : ∀ x : Bytes, x = [] → ({ c with sock := { c.sock with rx := x } } : Client) = c := by
    intro x hx
    rw [hx, ← hrx]
  rw [readyRead_full (c := { c with sock := { c.sock with rx := s } }) hpd hrb]
  dsimp only
  by_cases hs : s = []
  · rw [if_pos hs, if_pos hs]
    exact hc s hs
  · rw [if_neg hs, if_neg hs]
    exact congrArg (Client.receive env (Client.emit env fuel) s) (hc [] rfl)

theorem arrive_empty {segs : List Bytes} {inputs : List CInput} (h : Arrive segs inputs) (hs : segs.flatten = []) : ∀ bs, .arrive bs ∈ inputs → bs = [] := by
  induction h with
  | nil => intro bs hb; cases hb
  | @segment segs inputs s h ih =>
    rw [List.flatten_cons] at hs
    intro bs hb
    simp only [List.mem_cons, CInput.arrive.injEq, reduceCtorEq, false_or] at hb
    exact hb.elim (fun e => e.trans (List.append_eq_nil_iff.1 hs).1) (ih (List.append_eq_nil_iff.1 hs).2 bs)
  | other i hi h ih =>
    intro bs hb
    rcases List.mem_cons.1 hb with e | hb
    · rw [← e] at hi
      exact hi.elim
    · exact ih hs bs hb

theorem run_reports {env : ClientEnv} {fuel : Nat} {L : Setting} (hu : L.unread = []) (hfree : L.free = false) {m : Response} (hw : Fits L.head m) (hst : num m.head.status ≠ 100) {segs : List Bytes} {inputs : List CInput} (ha : Arrive segs inputs) :
    ∀ {c : Client} {p : HParser} {t : QData} {is : List Bytes} {v rest : Bytes}, Mid env L c p t → Pos env L.head m O p t is v → segs.flatten = is.flatten ++ v ++ rest → Cut is segs →
      Reports env (L.head = true) L.before (c.run env fuel inputs).log m ∧ (rest = [] → Fresh (c.run env fuel inputs)) := by
  induction ha with
  | nil =>
    intro c p t is v rest _ hp he
    exfalso
    rw [List.flatten_nil] at he
    have he0 := List.append_eq_nil_iff.1 he.symm
    have he1 : v = [] := (List.append_eq_nil_iff.1 he0.1).2
    cases hp with
    | final v hv _ => exact hv.ne he1
    | interim => exact render_ne m he1
  | @segment segs inputs s ha ih =>
    intro c p t is v rest h hp he hc
    show Reports env (L.head = true) L.before (Client.run env fuel ((c.step env fuel (.arrive s)).step env fuel .readyRead) inputs).log m ∧ (rest = [] → Fresh (Client.run env fuel ((c.step env fuel (.arrive s)).step env fuel .readyRead) inputs))
    rw [mid_arrive h hu hfree]
    by_cases hs : s = []
    · rw [if_pos hs]
      subst hs
      refine ih h hp he ?_
      intro before b1 b2 after e
      obtain ⟨a, b, k1, k2, k3⟩ := hc before b1 b2 after e
      cases a with
      | nil =>
        refine ⟨[], segs, rfl, ?_, ?_⟩
        · simp only [List.flatten_nil] at k2 ⊢; exact k2
        · simp
      | cons z a =>
        simp only [List.cons_append, List.cons.injEq] at k1
        obtain ⟨rfl, rfl⟩ := k1
        exact ⟨a, b, rfl, by simpa using k2, by simpa using k3⟩
    · rw [if_neg hs]
      rcases receive_segment (emit_mild env L.free fuel) (emit_log env fuel) (emit_framed env fuel) (emit_fresh env fuel) h hw hst hp hs he hc with ⟨p1, t1, is1, v1, k1, k2, k3, k4, -⟩ | ⟨hr, hfr, x, hre⟩
      · exact ih k1 k2 k3 k4
      · refine ⟨reports_grow hr (run_log env fuel inputs _), fun h0 => run_fresh env fuel inputs (hfr hu) ?_⟩
        rw [h0] at hre
        exact arrive_empty ha (List.append_eq_nil_iff.1 hre.symm).2
  | @other segs inputs i hi ha ih =>
    intro c p t is v rest h hp he hc
    exact ih (mid_harmless hu h hi) hp he hc

/-- The client when a response is awaited. -/
theorem awaiting_mid (env : ClientEnv) {c : Client} (free head : Bool) (hp : c.responsePending = true) (hst : c.sock.state = .connected) (hun : free = false → c.sock.readBufferSize = 0)
    (hh : Mellow free c.onHeaders) (hc : Mellow free c.onContent) (hd : head = true ↔ IsHead c.request) (ht : Top c) (hf : Fresh c) :
    ∃ t, Mid env { before := c.log, free := free, head := head } c c.p t ∧ Await c.p t := by
  have hok := ht.pending hp
  obtain ⟨f1, f2, f3, f4⟩ := hf.start ht.parsing hp
  refine ⟨{ d := c.d }, ⟨ht.parsing, rfl, hok, ht.safe.2 (Or.inl hok), ?_⟩, ⟨hok, f1, by omega, ht.safe.2 (Or.inl hok), hf.field, hf.value, f3, rfl, rfl, rfl, rfl⟩⟩
  refine ⟨rfl, hp, f4, hd, hst, hf.rx, hun, rfl, rfl, rfl, rfl, ⟨hh, hc⟩, ⟨rfl, by simp⟩, ⟨[], by simp, rfl, Or.inr ⟨[], ?_, announced_nil (by simp), Or.inl ⟨rfl, hf.decoder, f3.symm⟩⟩⟩⟩
  show taken [] ++ c.d.content = []
  rw [f3]; rfl

theorem divided_cut {interims : List Response} {segs : List Bytes} (h : Divided interims segs) : Cut (interims.map Response.render) segs := by
  intro before b1 b2 after e
  obtain ⟨l1, l2, rfl, rfl, e2⟩ := List.map_eq_append_iff.1 e
  obtain ⟨m1, l3, rfl, rfl, e3⟩ := List.map_eq_cons_iff.1 e2
  obtain ⟨m2, l4, rfl, rfl, rfl⟩ := List.map_eq_cons_iff.1 e3
  obtain ⟨a, b, k1, k2, k3⟩ := h l1 m1 m2 l4 rfl
  refine ⟨a, b, k1, ?_, ?_⟩
  · simpa using k2
  · simpa using k3

theorem fits_of {r : ClientRequest} {m : Response} (h : Answers r m) : ∃ hd : Bool, (hd = true ↔ IsHead r) ∧ Fits hd m := by
  by_cases hr : IsHead r
  · exact ⟨true, by simp [hr], h.2 hr⟩
  · exact ⟨false, by simp [hr], h.1 hr⟩

/-- One answer. -/
theorem answer_reports {env : ClientEnv} {fuel : Nat} {c : Client} (ht : Top c) (hf : Fresh c) (h : Awaiting c) {interims : List Response} {m : Response} {segs : List Bytes} {inputs : List CInput}
    (ha : Replied c.request interims m segs inputs) : Reports env (IsHead c.request) c.log (c.run env fuel inputs).log m ∧ Fresh (c.run env fuel inputs) := by
  obtain ⟨hd, d1, d2⟩ := fits_of ha.answers
  obtain ⟨t, h1, h2⟩ := awaiting_mid env false hd h.pending h.connected (fun _ => h.unlimited) (.of_calm h.onHeaders _) (.of_calm h.onContent _) d1 ht hf
  have hp := await_pos (env := env) (O := interims) d2 ha.final h2 interims fun i hi => ⟨ha.continues i hi, hi⟩
  have := run_reports (fuel := fuel) rfl rfl (L := { before := c.log, free := false, head := hd }) d2 ha.final ha.arrive (rest := []) h1 hp (by rw [ha.whole, List.append_nil]) (divided_cut ha.divided)
  rw [← d1]
  exact ⟨this.1, this.2 rfl⟩

/-! ## At any pace -/

theorem mid_unread {env : ClientEnv} {L : Setting} {c : Client} {p : HParser} {t : QData} (h : Mid env L c p t) (x : Bytes) :
    Mid env { L with unread := x } { c with sock := { c.sock with rx := x } } p t :=
  ⟨h.parsing, h.at_, h.ok, h.good, ⟨h.told.parsing, h.told.pending, h.told.error, h.told.method, h.told.state, rfl, h.told.unlimited, h.told.field, h.told.value, h.told.last, h.told.headers,
    h.told.calm, h.told.fin, h.told.log⟩⟩

theorem incoming_empty {inputs : List CInput} (h : incoming inputs = []) : ∀ bs, .arrive bs ∈ inputs → bs = [] := by
  intro bs hb
  unfold incoming at h
  rw [List.flatten_eq_nil_iff] at h
  exact h bs (List.mem_map.2 ⟨_, hb, rfl⟩)

/-- One reading. -/
theorem readyRead_paced {env : ClientEnv} {fuel : Nat} {L : Setting} {m : Response} (hw : Fits L.head m) (hst : num m.head.status ≠ 100) {c : Client} {p : HParser} {t : QData} {is : List Bytes} {v more : Bytes}
    (h : Mid env L c p t) (hp : Pos env L.head m O p t is v) (he : c.sock.rx ++ more = is.flatten ++ v) (hl : is.length ≤ 1) :
    (∃ U p1 t1 is1 v1, let c1 := c.readyRead env (Client.emit env fuel)
      Mid env { L with unread := U } c1 p1 t1 ∧ Pos env L.head m O p1 t1 is1 v1 ∧ c1.sock.rx ++ more = is1.flatten ++ v1 ∧ is1.length ≤ 1 ∧
      (c.sock.rx ≠ [] → (c.sock.readBufferSize = 0 ∨ c.d.content.length < c.sock.readBufferSize) → c1.sock.rx.length < c.sock.rx.length)) ∨
    (let c1 := c.readyRead env (Client.emit env fuel); Reports env (L.head = true) L.before c1.log m ∧ Fresh c1 ∧ more = []) := by
  have hrx : c.sock.rx = L.unread := h.told.rx
  have same : ¬ (c.sock.rx ≠ [] ∧ (c.sock.readBufferSize = 0 ∨ c.d.content.length < c.sock.readBufferSize)) →
      (∃ U p1 t1 is1 v1, Mid env { L with unread := U } c p1 t1 ∧ Pos env L.head m O p1 t1 is1 v1 ∧ c.sock.rx ++ more = is1.flatten ++ v1 ∧ is1.length ≤ 1 ∧
        (c.sock.rx ≠ [] → (c.sock.readBufferSize = 0 ∨ c.d.content.length < c.sock.readBufferSize) → c.sock.rx.length < c.sock.rx.length)) :=
    fun hx => ⟨L.unread, p, t, is, v, h, hp, he, hl, fun h1 h2 => absurd ⟨h1, h2⟩ hx⟩
  unfold Client.readyRead
  rw [if_neg (by simp [mid_pending h])]
  by_cases h0 : c.sock.rx.length = 0
  · rw [if_pos h0]; exact Or.inl (same fun hx => hx.1 (List.length_eq_zero_iff.1 h0))
  rw [if_neg h0]
  dsimp only
  generalize hnn : (if c.sock.readBufferSize > 0 then c.sock.readBufferSize - c.d.content.length else c.sock.rx.length) = n
  by_cases hn : n = 0
  · rw [if_pos hn]
    refine Or.inl (same fun hx => ?_)
    rw [hn] at hnn
    split at hnn
    · rcases hx.2 with h | h <;> omega
    · exact h0 hnn
  rw [if_neg hn]
  have hm := mid_unread h (c.sock.rx.drop n)
  have hne : c.sock.rx.take n ≠ [] := by
    intro e
    have := congrArg List.length e
    simp only [List.length_take, List.length_nil] at this
    omega
  have hsplit : c.sock.rx.take n ++ [c.sock.rx.drop n ++ more].flatten = is.flatten ++ v ++ [] := by
    rw [List.append_nil, ← he]; simp [← List.append_assoc]
  rcases receive_segment (emit_mild env L.free fuel) (emit_log env fuel) (emit_framed env fuel) (emit_fresh env fuel) (L := { L with unread := c.sock.rx.drop n }) hm hw hst hp hne hsplit
      (cut_short hl) with ⟨p1, t1, is1, v1, k1, k2, k3, -, k5⟩ | ⟨hr, hfr, x, hre⟩
  · have hrx1 := k1.told.rx
    dsimp only at hrx1
    refine Or.inl ⟨_, p1, t1, is1, v1, k1, k2, ?_, by omega, fun _ _ => ?_⟩
    · rw [hrx1]
      simpa using k3
    · rw [hrx1, List.length_drop]
      omega
  · have hx := (List.append_eq_nil_iff.1 hre.symm).2
    simp only [List.flatten_cons, List.flatten_nil, List.append_nil, List.append_eq_nil_iff] at hx
    exact Or.inr ⟨hr, hfr hx.1, hx.2⟩

/-- The response has been reported, or the client is in the middle of it and the rest waits in the socket. -/
def Along (env : ClientEnv) (B : List CEv) (head : Bool) (m : Response) (O : List Response) (c : Client) : Prop :=
  (Reports env (head = true) B c.log m ∧ Fresh c) ∨ ∃ U p t is v, Mid env { before := B, unread := U, free := true, head := head } c p t ∧ Pos env head m O p t is v ∧ c.sock.rx = is.flatten ++ v ∧ is.length ≤ 1

theorem along_open {env : ClientEnv} {B : List CEv} {head : Bool} {m : Response} {c : Client} (h : Along env B head m O c) :
    (Reports env (head = true) B c.log m ∧ Fresh c) ∨ (c.responsePending = true ∧ c.sock.rx ≠ []) := by
  rcases h with h | ⟨U, p, t, is, v, h, hp, he, -⟩
  · exact Or.inl h
  · refine Or.inr ⟨mid_pending h, fun h0 => ?_⟩
    rw [h0] at he
    have he1 := (List.append_eq_nil_iff.1 he.symm).2
    cases hp with
    | final v hv _ => exact hv.ne he1
    | interim => exact render_ne m he1

/-- … when `more` has not arrived yet. -/
def AlongMore (env : ClientEnv) (B : List CEv) (head : Bool) (m : Response) (O : List Response) (more : Bytes) (c : Client) : Prop :=
  ((Reports env (head = true) B c.log m ∧ Fresh c) ∧ more = []) ∨
    ∃ U p t is v, Mid env { before := B, unread := U, free := true, head := head } c p t ∧ Pos env head m O p t is v ∧ c.sock.rx ++ more = is.flatten ++ v ∧ is.length ≤ 1

/-- … when `more` has not arrived yet. -/
theorem run_paced_more {env : ClientEnv} {fuel : Nat} {m : Response} {head : Bool} (hw : Fits head m) (hst : num m.head.status ≠ 100) {B : List CEv} :
    ∀ {inputs : List CInput} {c : Client} {U : Bytes} {p : HParser} {t : QData} {is : List Bytes} {v more : Bytes}, (∀ i ∈ inputs, Steady i) → Mid env { before := B, unread := U, free := true, head := head } c p t →
      Pos env head m O p t is v → c.sock.rx ++ (incoming inputs ++ more) = is.flatten ++ v → is.length ≤ 1 →
      AlongMore env B head m O more (c.run env fuel inputs) := by
  intro inputs
  induction inputs with
  | nil =>
    intro c U p t is v more _ h hp he hl
    exact Or.inr ⟨U, p, t, is, v, h, hp, he, hl⟩
  | cons i inputs ih =>
    intro c U p t is v more hs h hp he hl
    have hs' : ∀ i ∈ inputs, Steady i := fun j hj => hs j (by simp [hj])
    have hi := hs i (by simp)
    have hap : ∀ j, (∀ bs, j ≠ .arrive bs) → incoming (j :: inputs) = incoming inputs := by
      intro j hj
      unfold incoming
      cases j <;> first | rfl | exact absurd rfl (hj _)
    have hread : ∀ c' : Client, c'.sock.rx = c.sock.rx → Mid env { before := B, unread := U, free := true, head := head } c' p t → incoming (i :: inputs) = incoming inputs →
        c.step env fuel i = c'.readyRead env (Client.emit env fuel) →
        AlongMore env B head m O more ((c.step env fuel i).run env fuel inputs) := by
      intro c' e1 h' e2 e3
      rw [e3]
      rcases readyRead_paced (fuel := fuel) (L := { before := B, unread := U, free := true, head := head }) (more := incoming inputs ++ more) hw hst h' hp (by rw [e1, ← e2]; exact he) hl with
        ⟨U1, p1, t1, is1, v1, k1, k2, k3, k4, -⟩ | ⟨k1, k2, k3⟩
      · exact ih hs' k1 k2 k3 k4
      · exact Or.inl ⟨⟨reports_grow k1 (run_log env fuel inputs _), run_fresh env fuel inputs k2 (incoming_empty (List.append_eq_nil_iff.1 k3).1)⟩, (List.append_eq_nil_iff.1 k3).2⟩
    show AlongMore env B head m O more ((c.step env fuel i).run env fuel inputs)
    cases i with
    | call u =>
      have hmel : UserCall.Mellow true u := by
        cases u <;> first | trivial | exact (hi rfl).elim
      have h1 := mid_call (fuel := fuel) h hmel
      refine ih hs' h1 hp ?_ hl
      have e1 : (c.step env fuel (.call u)).sock.rx = U := h1.told.rx
      have e2 : c.sock.rx = U := h.told.rx
      rw [e1, ← e2, ← hap (.call u) (by simp)]
      exact he
    | connected =>
      have : c.step env fuel .connected = c := by
        show (if c.sock.state = .connecting then _ else c) = c
        rw [if_neg (by rw [show c.sock.state = .connected from h.told.state]; simp)]
      rw [this]
      exact ih hs' h hp (by rw [← hap .connected (by simp)]; exact he) hl
    | error rc => exact hi.elim
    | disconnected => exact hi.elim
    | arrive bs =>
      have e1 : c.step env fuel (.arrive bs) = { c with sock := { c.sock with rx := c.sock.rx ++ bs } } := if_pos (Or.inl h.told.state)
      rw [e1]
      refine ih hs' (mid_unread h (c.sock.rx ++ bs)) hp ?_ hl
      rw [← he]
      show c.sock.rx ++ bs ++ (incoming inputs ++ more) = c.sock.rx ++ (bs ++ incoming inputs ++ more)
      simp
    | readyRead => exact hread c rfl h (hap _ (by simp)) rfl
    | unsent b =>
      exact ih (c := { c with sock := { c.sock with unsent := b } }) hs' ⟨h.parsing, h.at_, h.ok, h.good, h.told.same rfl rfl rfl rfl rfl rfl rfl rfl rfl rfl rfl rfl⟩ hp (by rw [← hap (.unsent b) (by simp)]; exact he) hl
    | timeout =>
      by_cases h0 : c.timers = 0
      · have : c.step env fuel .timeout = c := if_pos h0
        rw [this]
        exact ih hs' h hp (by rw [← hap .timeout (by simp)]; exact he) hl
      · exact hread { c with timers := c.timers - 1 } rfl ⟨h.parsing, h.at_, h.ok, h.good, h.told.same rfl rfl rfl rfl rfl rfl rfl rfl rfl rfl rfl rfl⟩ (hap _ (by simp)) (if_neg h0)
    | tick ms =>
      exact ih (c := { c with now := c.now + ms }) hs' ⟨h.parsing, h.at_, h.ok, h.good, h.told.same rfl rfl rfl rfl rfl rfl rfl rfl rfl rfl rfl rfl⟩ hp (by rw [← hap (.tick ms) (by simp)]; exact he) hl

theorem run_paced {env : ClientEnv} {fuel : Nat} {m : Response} {head : Bool} (hw : Fits head m) (hst : num m.head.status ≠ 100) {B : List CEv}
    {inputs : List CInput} {c : Client} {U : Bytes} {p : HParser} {t : QData} {is : List Bytes} {v : Bytes} (hs : ∀ i ∈ inputs, Steady i) (h : Mid env { before := B, unread := U, free := true, head := head } c p t)
    (hp : Pos env head m O p t is v) (he : c.sock.rx ++ incoming inputs = is.flatten ++ v) (hl : is.length ≤ 1) : Along env B head m O (c.run env fuel inputs) := by
  rcases run_paced_more (fuel := fuel) (more := []) hw hst hs h hp (by rw [List.append_nil]; exact he) hl with ⟨h, -⟩ | ⟨U, p, t, is, v, h1, h2, h3, h4⟩
  · exact Or.inl h
  · exact Or.inr ⟨U, p, t, is, v, h1, h2, by rw [← h3, List.append_nil], h4⟩

theorem mellow_true {l : List (List UserCall)} (h : ∀ calls ∈ l, .abort ∉ calls) : Mellow true l := by
  intro x hx u hu
  cases u <;> first | trivial | exact h x hx hu

/-- One answer, at any pace. -/
theorem paced_along {env : ClientEnv} {fuel : Nat} {c : Client} (ht : Top c) (hf : Fresh c) (h : Expecting c) {interims : List Response} {m : Response} {inputs : List CInput}
    (ha : Paced c.request interims m inputs) : ∃ head, (head = true ↔ IsHead c.request) ∧ Fits head m ∧ Along env c.log head m interims (c.run env fuel inputs) := by
  obtain ⟨hd, d1, d2⟩ := fits_of ha.answers
  obtain ⟨t, h1, h2⟩ := awaiting_mid env true hd h.pending h.connected (by simp) (mellow_true h.onHeaders) (mellow_true h.onContent) d1 ht hf
  have hp := await_pos (env := env) (O := interims) d2 ha.final h2 interims fun i hi => ⟨ha.continues i hi, hi⟩
  exact ⟨hd, d1, d2, run_paced (fuel := fuel) d2 ha.final ha.steady h1 hp (by rw [hf.rx, List.nil_append]; exact ha.whole) (by rw [List.length_map]; exact ha.few)⟩

theorem paced_reports {env : ClientEnv} {fuel : Nat} {c : Client} (ht : Top c) (hf : Fresh c) (h : Expecting c) {interims : List Response} {m : Response} {inputs : List CInput}
    (ha : Paced c.request interims m inputs) : (Reports env (IsHead c.request) c.log (c.run env fuel inputs).log m ∧ Fresh (c.run env fuel inputs)) ∨
      ((c.run env fuel inputs).responsePending = true ∧ (c.run env fuel inputs).sock.rx ≠ []) := by
  obtain ⟨_, d, -, h⟩ := paced_along (fuel := fuel) (env := env) ht hf h ha
  rw [← d]
  exact along_open h

/-- The application takes what there is, and the timer this sets fires. -/
theorem along_round {env : ClientEnv} {fuel : Nat} {B : List CEv} {head : Bool} {m : Response} (hw : Fits head m) (hst : num m.head.status ≠ 100) {c : Client} (h : Along env B head m O c) :
    let c1 := c.run env fuel [.call .consumeContent, .timeout]
    Along env B head m O c1 ∧ ((Reports env (head = true) B c1.log m ∧ Fresh c1) ∨ c1.sock.rx.length < c.sock.rx.length) := by
  intro c1
  rcases h with ⟨h1, h2⟩ | ⟨U, p, t, is, v, h, hp, he, hl⟩
  · have hr : Reports env (head = true) B c1.log m ∧ Fresh c1 := ⟨reports_grow h1 (run_log env fuel _ _), run_fresh env fuel _ h2 (by simp)⟩
    exact ⟨Or.inl hr, Or.inl hr⟩
  · have hrx : c.sock.rx ≠ [] := by
      rcases along_open (Or.inr ⟨U, p, t, is, v, h, hp, he, hl⟩ : Along env B head m O c) with ⟨-, hf⟩ | h'
      · intro h0
        rw [h0] at he
        have he1 := (List.append_eq_nil_iff.1 he.symm).2
        cases hp with
        | final v hv _ => exact hv.ne he1
        | interim => exact render_ne m he1
      · exact h'.2
    have hm := mid_call (fuel := fuel) h (u := .consumeContent) trivial
    have e1 : c.call env (Client.emit env fuel) .consumeContent = { (c.add (.consumed c.d.content)) with d := { c.d with content := [] }, timers := c.timers + 1 } := by
      show c.consumeContent = _
      unfold Client.consumeContent
      dsimp only
      refine if_pos ?_
      show (c.responsePending && c.sock.rx.length != 0) = true
      simp [mid_pending h, hrx]
    have e2 : c1 = { (c.add (.consumed c.d.content)) with d := { c.d with content := [] } }.readyRead env (Client.emit env fuel) := by
      show ((c.call env (Client.emit env fuel) .consumeContent).step env fuel .timeout) = _
      rw [e1]
      rfl
    have hm' : Mid env { before := B, unread := U, free := true, head := head } { (c.add (.consumed c.d.content)) with d := { c.d with content := [] } } p t := by
      have hm0 : Mid env { before := B, unread := U, free := true, head := head } (c.call env (Client.emit env fuel) .consumeContent) p t := hm
      rw [e1] at hm0
      exact ⟨hm0.parsing, hm0.at_, hm0.ok, hm0.good, hm0.told.same rfl rfl rfl rfl rfl rfl rfl rfl rfl rfl rfl rfl⟩
    rw [e2]
    rcases readyRead_paced (fuel := fuel) (more := []) hw hst hm' hp (by rw [List.append_nil]; exact he) hl with ⟨U1, p1, t1, is1, v1, k1, k2, k3, k4, k5⟩ | ⟨k1, k2, -⟩
    · refine ⟨Or.inr ⟨U1, p1, t1, is1, v1, k1, k2, (List.append_nil _).symm.trans k3, k4⟩, Or.inr ?_⟩
      refine k5 hrx ?_
      show c.sock.readBufferSize = 0 ∨ 0 < c.sock.readBufferSize
      omega
    · exact ⟨Or.inl ⟨k1, k2⟩, Or.inl ⟨k1, k2⟩⟩

/-- Enough such rounds. -/
theorem along_rounds {env : ClientEnv} {fuel : Nat} {B : List CEv} {head : Bool} {m : Response} (hw : Fits head m) (hst : num m.head.status ≠ 100) : ∀ (k : Nat) {c : Client},
    Along env B head m O c → c.sock.rx.length ≤ k → let c1 := c.run env fuel (List.replicate k [.call .consumeContent, .timeout]).flatten; Reports env (head = true) B c1.log m ∧ Fresh c1
  | 0, c, h, hk => by
    rcases along_open h with h | h
    · exact h
    · exact absurd (List.length_eq_zero_iff.1 (Nat.le_zero.1 hk)) h.2
  | k + 1, c, h, hk => by
    obtain ⟨h1, h2⟩ := along_round (fuel := fuel) hw hst h
    have e : c.run env fuel (List.replicate (k + 1) [CInput.call .consumeContent, .timeout]).flatten =
        (c.run env fuel [.call .consumeContent, .timeout]).run env fuel (List.replicate k [.call .consumeContent, .timeout]).flatten := by
      rw [List.replicate_succ, List.flatten_cons]
      exact List.foldl_append ..
    intro c1
    have e' : c1 = _ := e
    rw [e']
    rcases h2 with ⟨h2, h3⟩ | h2
    · exact ⟨reports_grow h2 (run_log env fuel _ _), run_fresh env fuel _ h3 (by simp)⟩
    · exact along_rounds hw hst k h1 (by omega)

end
end Pillow
