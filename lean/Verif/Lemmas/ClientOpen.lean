import Verif.Lemmas.ClientReply
import Verif.Lemmas.ReplyPart
/-!
# Responses that end with the connection
-/
namespace Pillow
open Spec

/-- Nothing is left to parse. -/
theorem steps_nil {σ : Type} {cb : CB σ} {F V B : Bytes → σ → σ} {Rel : σ → σ → Prop} (hL : Laws cb F V B Rel) {p x : HParser} {s y : σ} (h : Steps cb Rel p s [] x y) (hg : Good 0 p) (he : p.errno = .ok) :
    flush F V B s (fresh p) = flush F V B y (fresh x) ∧ p = x := by
  obtain ⟨-, k2, k3⟩ := h hg he
  have k := k3 [] 0
  rw [List.append_nil, execLoop_nil, execLoop_nil, leftover_eq hL (fresh_ok p) he, leftover_eq hL (fresh_ok x) k2] at k
  exact ⟨k.state (Or.inl he), k.parser⟩

section
variable {env : ClientEnv} {em : Signal → Client → Client} {L : Setting} (hm : EmMild L.free em) (hg : EmGrows em) (hf : EmFramed em) (hx : EmFresh em)
include hm hg hf hx

/-- A piece of data that is parsed without an end. -/
theorem inject_steps {c : Client} {p x : HParser} {t y : QData} (h : Mid env L c p t) {u v : Bytes} (he : Steps (quietCb env L.head) QRel p t (u ++ v) x y) (hu : u ≠ []) :
    ∃ p1 t1, Mid env L (c.receive env em u) p1 t1 ∧ Steps (quietCb env L.head) QRel p1 t1 v x y := by
  have hp0 := h.at_
  subst hp0
  obtain ⟨p2, t2, e1, g1, o1, n1⟩ := Steps.split (quietCb_laws env L.head) he hu h.good h.ok
  have hr := inject_rel hm hg hf hx h u
  rw [e1] at hr
  have k1 : Mid env L (c.inject env em u).1 p2 t2 := by
    unfold Client.inject
    dsimp only
    have hp := hr.parser
    have ho := hr.ok (by rw [hp, o1]; simp)
    generalize execute (clientCb env em) c.p { c with parsing := true } u = r at hp ho ⊢
    dsimp only at hp ho
    rw [hp, if_neg (by rw [o1]; simp)]
    exact ⟨rfl, rfl, o1, g1, ho.same ho.parsing.symm rfl rfl rfl rfl rfl rfl rfl rfl rfl rfl rfl⟩
  have k2 : (c.inject env em u).2 = u.length := by
    unfold Client.inject
    dsimp only
    exact hr.consumed
  refine ⟨p2, t2, ?_, n1⟩
  rw [receive_all k1 k2]
  exact k1

end

/-- The client in the middle of data that is parsed to the end in `x` and `y`, of which what is in the socket and `more` are missing. -/
def Within (env : ClientEnv) (B : List CEv) (head : Bool) (x : HParser) (y : QData) (more : Bytes) (c : Client) : Prop :=
  ∃ U p t, Mid env { before := B, unread := U, free := true, head := head } c p t ∧ Steps (quietCb env head) QRel p t (c.sock.rx ++ more) x y

theorem readyRead_within {env : ClientEnv} {fuel : Nat} {B : List CEv} {head : Bool} {x : HParser} {y : QData} {more : Bytes} {c : Client} (h : Within env B head x y more c) :
    let c1 := c.readyRead env (Client.emit env fuel)
    Within env B head x y more c1 ∧ (c.sock.rx ≠ [] → (c.sock.readBufferSize = 0 ∨ c.d.content.length < c.sock.readBufferSize) → c1.sock.rx.length < c.sock.rx.length) := by
  have same := h
  obtain ⟨U, p, t, h, hs⟩ := h
  unfold Client.readyRead
  rw [if_neg (by simp [mid_pending h])]
  by_cases h0 : c.sock.rx.length = 0
  · rw [if_pos h0]; exact ⟨same, fun h1 => absurd (List.length_eq_zero_iff.1 h0) h1⟩
  rw [if_neg h0]
  dsimp only
  generalize hnn : (if c.sock.readBufferSize > 0 then c.sock.readBufferSize - c.d.content.length else c.sock.rx.length) = n
  by_cases hn : n = 0
  · rw [if_pos hn]
    refine ⟨same, fun h1 h2 => ?_⟩
    rw [hn] at hnn
    split at hnn
    · rcases h2 with h | h <;> omega
    · exact absurd hnn h0
  rw [if_neg hn]
  have hm := mid_unread h (c.sock.rx.drop n)
  have hne : c.sock.rx.take n ≠ [] := by
    intro e
    have := congrArg List.length e
    simp only [List.length_take, List.length_nil] at this
    omega
  have hsplit : c.sock.rx ++ more = c.sock.rx.take n ++ (c.sock.rx.drop n ++ more) := by rw [← List.append_assoc, List.take_append_drop]
  rw [hsplit] at hs
  obtain ⟨p1, t1, k1, k2⟩ := inject_steps (emit_mild env true fuel) (emit_log env fuel) (emit_framed env fuel) (emit_fresh env fuel)
    (L := { before := B, unread := c.sock.rx.drop n, free := true, head := head }) hm hs hne
  have hrx1 := k1.told.rx
  dsimp only at hrx1
  refine ⟨⟨_, p1, t1, k1, ?_⟩, fun _ _ => ?_⟩
  · rw [hrx1]; exact k2
  · rw [hrx1, List.length_drop]; omega

theorem run_within {env : ClientEnv} {fuel : Nat} {B : List CEv} {head : Bool} {x : HParser} {y : QData} :
    ∀ {inputs : List CInput} {c : Client} {more : Bytes}, (∀ i ∈ inputs, Steady i) → Within env B head x y (incoming inputs ++ more) c → Within env B head x y more (c.run env fuel inputs) := by
  intro inputs
  induction inputs with
  | nil => intro c more _ h; exact h
  | cons i inputs ih =>
    intro c more hs h
    have hs' : ∀ i ∈ inputs, Steady i := fun j hj => hs j (by simp [hj])
    have hi := hs i (by simp)
    have hap : ∀ j, (∀ bs, j ≠ .arrive bs) → incoming (j :: inputs) = incoming inputs := by
      intro j hj
      unfold incoming
      cases j <;> first | rfl | exact absurd rfl (hj _)
    show Within env B head x y more ((c.step env fuel i).run env fuel inputs)
    refine ih hs' ?_
    cases i with
    | call u =>
      rw [hap _ (by simp)] at h
      obtain ⟨U, p, t, h, hst⟩ := h
      have hmel : UserCall.Mellow true u := by
        cases u <;> first | trivial | exact (hi rfl).elim
      have h1 := mid_call (fuel := fuel) h hmel
      have e1 : (c.step env fuel (.call u)).sock.rx = U := h1.told.rx
      have e2 : c.sock.rx = U := h.told.rx
      exact ⟨U, p, t, h1, by rw [e1, ← e2]; exact hst⟩
    | connected =>
      rw [hap _ (by simp)] at h
      have : c.step env fuel .connected = c := by
        obtain ⟨U, p, t, h, -⟩ := h
        show (if c.sock.state = .connecting then _ else c) = c
        rw [if_neg (by rw [show c.sock.state = .connected from h.told.state]; simp)]
      rw [this]
      exact h
    | error rc => exact hi.elim
    | disconnected => exact hi.elim
    | arrive bs =>
      obtain ⟨U, p, t, h, hst⟩ := h
      have e1 : c.step env fuel (.arrive bs) = { c with sock := { c.sock with rx := c.sock.rx ++ bs } } := if_pos (Or.inl h.told.state)
      rw [e1]
      refine ⟨_, p, t, mid_unread h (c.sock.rx ++ bs), ?_⟩
      have e2 : c.sock.rx ++ bs ++ (incoming inputs ++ more) = c.sock.rx ++ (incoming (.arrive bs :: inputs) ++ more) := by
        show _ = c.sock.rx ++ (bs ++ incoming inputs ++ more)
        simp
      dsimp only
      rw [e2]
      exact hst
    | readyRead =>
      rw [hap _ (by simp)] at h
      exact (readyRead_within h).1
    | unsent b =>
      rw [hap _ (by simp)] at h
      obtain ⟨U, p, t, h, hst⟩ := h
      exact ⟨U, p, t, ⟨h.parsing, h.at_, h.ok, h.good, h.told.same rfl rfl rfl rfl rfl rfl rfl rfl rfl rfl rfl rfl⟩, hst⟩
    | timeout =>
      rw [hap _ (by simp)] at h
      by_cases h0 : c.timers = 0
      · have : c.step env fuel .timeout = c := if_pos h0
        rw [this]
        exact h
      · have e : c.step env fuel .timeout = { c with timers := c.timers - 1 }.readyRead env (Client.emit env fuel) := if_neg h0
        rw [e]
        obtain ⟨U, p, t, h, hst⟩ := h
        exact (readyRead_within (c := { c with timers := c.timers - 1 }) ⟨U, p, t, ⟨h.parsing, h.at_, h.ok, h.good, h.told.same rfl rfl rfl rfl rfl rfl rfl rfl rfl rfl rfl rfl⟩, hst⟩).1
    | tick ms =>
      rw [hap _ (by simp)] at h
      obtain ⟨U, p, t, h, hst⟩ := h
      exact ⟨U, p, t, ⟨h.parsing, h.at_, h.ok, h.good, h.told.same rfl rfl rfl rfl rfl rfl rfl rfl rfl rfl rfl rfl⟩, hst⟩

/-- The application takes what there is, and the timer this sets fires. -/
theorem within_round {env : ClientEnv} {fuel : Nat} {B : List CEv} {head : Bool} {x : HParser} {y : QData} {c : Client} (h : Within env B head x y [] c) :
    let c1 := c.run env fuel [.call .consumeContent, .timeout]
    Within env B head x y [] c1 ∧ (c.sock.rx ≠ [] → c1.sock.rx.length < c.sock.rx.length) := by
  intro c1
  have hc1 : Within env B head x y [] c1 := run_within (inputs := [.call .consumeContent, .timeout]) (by simp [Steady]) h
  refine ⟨hc1, fun hrx => ?_⟩
  obtain ⟨U, p, t, h, hst⟩ := h
  have hm := mid_call (fuel := fuel) h (u := .consumeContent) trivial
  have e1 : c.call env (Client.emit env fuel) .consumeContent = { (c.add (.consumed c.d.content)) with d := { c.d with content := [] }, timers := c.timers + 1 } := by
    show c.consumeContent = _
    unfold Client.consumeContent
    dsimp only
    refine if_pos ?_
    show (c.responsePending && c.sock.rx.length != 0) = true
    simp [mid_pending h, hrx]
  have e2 : c1 = { (c.add (.consumed c.d.content)) with d := { c.d with content := [] } }.readyRead env (Client.emit env fuel) := by
    show ((c.call env (Client.emit env fuel) .consumeContent).step env fuel .timeout) = _
    rw [e1]
    rfl
  have hm' : Mid env { before := B, unread := U, free := true, head := head } { (c.add (.consumed c.d.content)) with d := { c.d with content := [] } } p t := by
    have hm0 : Mid env { before := B, unread := U, free := true, head := head } (c.call env (Client.emit env fuel) .consumeContent) p t := hm
    rw [e1] at hm0
    exact ⟨hm0.parsing, hm0.at_, hm0.ok, hm0.good, hm0.told.same rfl rfl rfl rfl rfl rfl rfl rfl rfl rfl rfl rfl⟩
  rw [e2]
  refine (readyRead_within (fuel := fuel) (c := { (c.add (.consumed c.d.content)) with d := { c.d with content := [] } }) ⟨U, p, t, hm', hst⟩).2 hrx ?_
  show c.sock.readBufferSize = 0 ∨ 0 < c.sock.readBufferSize
  omega

/-- Enough such rounds. -/
theorem within_rounds {env : ClientEnv} {fuel : Nat} {B : List CEv} {head : Bool} {x : HParser} {y : QData} : ∀ (k : Nat) {c : Client},
    Within env B head x y [] c → c.sock.rx.length ≤ k → let c1 := c.run env fuel (List.replicate k [.call .consumeContent, .timeout]).flatten; Within env B head x y [] c1 ∧ c1.sock.rx = []
  | 0, c, h, hk => ⟨h, List.length_eq_zero_iff.1 (Nat.le_zero.1 hk)⟩
  | k + 1, c, h, hk => by
    obtain ⟨h1, h2⟩ := within_round (fuel := fuel) h
    have e : c.run env fuel (List.replicate (k + 1) [CInput.call .consumeContent, .timeout]).flatten =
        (c.run env fuel [.call .consumeContent, .timeout]).run env fuel (List.replicate k [.call .consumeContent, .timeout]).flatten := by
      rw [List.replicate_succ, List.flatten_cons]
      exact List.foldl_append ..
    intro c1
    have e' : c1 = _ := e
    rw [e']
    refine within_rounds k h1 ?_
    by_cases hrx : c.sock.rx = []
    · obtain ⟨U, p, t, h, hst⟩ := h
      obtain ⟨U1, p1, t1, h1', -⟩ := h1
      have e0 : c.run env fuel [.call .consumeContent, .timeout] = (c.step env fuel (.call .consumeContent)).step env fuel .timeout := rfl
      have hm := mid_call (fuel := fuel) h (u := .consumeContent) trivial
      have r1 : (c.step env fuel (.call .consumeContent)).sock.rx = [] := by
        have a : (c.step env fuel (.call .consumeContent)).sock.rx = U := hm.told.rx
        have b : c.sock.rx = U := h.told.rx
        rw [a, ← b, hrx]
      have r2 : ((c.step env fuel (.call .consumeContent)).step env fuel .timeout).sock.rx = [] := by
        generalize c.step env fuel (.call .consumeContent) = c2 at r1
        show (if c2.timers = 0 then c2 else { c2 with timers := c2.timers - 1 }.readyRead env (Client.emit env fuel)).sock.rx = []
        split
        · exact r1
        · unfold Client.readyRead
          split
          · rfl
          · rw [if_pos (by rw [show ({ c2 with timers := c2.timers - 1 } : Client).sock.rx = [] from r1]; rfl)]
            exact r1
      rw [e0, r2]
      exact Nat.zero_le _
    · have := h2 hrx
      omega

/-- The client has read all there is of a response that ends with the connection. -/
structure Through (env : ClientEnv) (before : List CEv) (h : RHead) (content : Bytes) (c : Client) : Prop where
  pending : c.responsePending = true
  error : c.error = .noError
  status : c.p.status = num h.status
  headers : c.d.headers = h.shown
  field : c.d.field = []
  value : c.d.value = []
  decoder : ¬ Gzipped h.shown ∨ env.inflate = none → c.contentDecoder = none
  log : ∃ l all, c.log = before ++ l ∧ signals l = [.headersCompleted (num h.status) h.shown] ∧ taken l ++ c.d.content = all ∧ Announced l all ∧ Shown env False ⟨h, content, content⟩ all

/-- The response that ends with the connection arrives. -/
theorem lasts_within {env : ClientEnv} {fuel : Nat} {c : Client} (ht : Top c) (hf : Fresh c) (h : Expecting c) {hd : RHead} {content : Bytes} {inputs : List CInput}
    (ha : Lasts c.request hd content inputs) : ∃ x y, Within env c.log false x y [] (c.run env fuel inputs) ∧
      ∀ c' : Client, Within env c.log false x y [] c' → c'.sock.rx = [] → Through env c.log hd content c' := by
  obtain ⟨t, h1, h2⟩ := awaiting_mid env true false h.pending h.connected (by simp) (mellow_true h.onHeaders) (mellow_true h.onContent) (by simp [ha.get]) ht hf
  have hL := quietCb_laws env false
  obtain ⟨e1, e2⟩ := quiet_pushed h2 hd
  obtain ⟨x, k1, -, k3, k4, k5⟩ := steps_untilEof hL (MB := qBegin) (fun _ _ => rfl) hd ha.wf ha.ends c.p h2.ok h2.state h2.nread t
    { t with d := { t.d with headers := hd.shown, content := [], lastWasValue := false }, sig := [.headersCompleted (num hd.status) hd.shown], gz := env.inflate.isSome && gzipped hd.shown } (fun q _ hk => by
      have e0 : quietCb env false .headersComplete q (told qF qV (qBegin t) hd.headers) = (q, qHead env q.status (told qF qV (qBegin t) hd.headers)) := rfl
      rw [e0, hk.status, e1]
      unfold qHead
      rw [if_neg ha.final]
      dsimp only
      rw [e2, told_content, h2.gz, h2.odd, h2.sig]
      rfl)
  have k6 := k5.trans hL (steps_eof hL x k3 _ content)
  refine ⟨x, qB content { t with d := { t.d with headers := hd.shown, content := [], lastWasValue := false }, sig := [.headersCompleted (num hd.status) hd.shown], gz := env.inflate.isSome && gzipped hd.shown },
    run_within (more := []) ha.steady ⟨_, _, t, h1, ?_⟩, ?_⟩
  · rw [hf.rx, List.append_nil, List.nil_append, ha.whole]
    exact k6
  · rintro c' ⟨U, p, t', m1, m2⟩ hrx
    rw [hrx, List.append_nil] at m2
    obtain ⟨n1, rfl⟩ := steps_nil hL m2 m1.good m1.ok
    have hfr : fresh p = {} := by unfold fresh; rw [k3]; rfl
    rw [hfr] at n1
    have n1 : t' = _ := n1
    subst n1
    obtain ⟨l, l1, l2, l3⟩ := m1.told.log
    rcases l3 with l3 | ⟨all, l3, l4, l5⟩
    · have : (t.odd || (!content.isEmpty && false)) = true := l3
      rw [h2.odd] at this; simp at this
    · refine ⟨mid_pending m1, m1.told.error, by rw [m1.at_]; exact k1.status, m1.told.headers, m1.told.field.trans h2.field, m1.told.value.trans h2.value, fun hz => ?_, ⟨l, all, l1, l2, l3, l4, ?_⟩⟩
      · rcases l5 with ⟨-, z, -⟩ | ⟨z, -⟩
        · exact z
        · have z : (env.inflate.isSome && gzipped hd.shown) = true := z
          simp only [Bool.and_eq_true] at z
          rcases hz with hz | hz
          · exact absurd ((gzipped_iff _).1 z.2) hz
          · rw [hz] at z; cases z.1
      · unfold Shown
        rw [← gzipped_iff]
        have hcon : ([] : Bytes) ++ content = content := rfl
        rcases l5 with ⟨z1, -, z2⟩ | ⟨z1, -, f, blocks, z2, -, z3, z4⟩
        · have z1 : (env.inflate.isSome && gzipped hd.shown) = false := z1
          refine ⟨fun hz inflate hi => ?_, fun _ => z2⟩
          rw [hi, hz.1] at z1
          cases z1
        · have z1 : (env.inflate.isSome && gzipped hd.shown) = true := z1
          simp only [Bool.and_eq_true] at z1
          refine ⟨fun hz inflate hi => ?_, fun hz => ?_⟩
          · rw [z2] at hi
            cases hi
            exact ⟨blocks, z3, z4⟩
          · rcases hz with hz | hz | hz
            · exact absurd z1.2 hz
            · rw [hz] at z2; cases z2
            · exact hz.elim

/-- The connection is closed. -/
theorem error_shows {env : ClientEnv} {fuel : Nat} {c : Client} (hp : c.responsePending = true) (rc : Bool) :
    c.log ++ [.close, .finished (if rc then .remoteHostClosed else .network) c.p.status c.d.headers c.d.content] <+: (c.step env fuel (.error rc)).log := by
  show _ <+: (c.deviceError (Client.emit env fuel) rc).log
  unfold Client.deviceError
  have hn : ¬ (!c.responsePending) = true := by simp [hp]
  rw [if_neg hn]
  dsimp only
  refine List.IsPrefix.trans ?_ (emit_log env fuel _ _)
  rw [show c.log ++ [.close, .finished (if rc then .remoteHostClosed else .network) c.p.status c.d.headers c.d.content] =
    (c.log ++ [.close]) ++ [.finished (if rc then .remoteHostClosed else .network) c.p.status c.d.headers c.d.content] by simp]
  exact List.prefix_refl _

theorem error_fresh {env : ClientEnv} {fuel : Nat} {c : Client} (hp : c.responsePending = true) (h1 : c.d.field = []) (h2 : c.d.value = []) (h3 : c.contentDecoder = none) (rc : Bool) :
    Fresh (c.step env fuel (.error rc)) := by
  show Fresh (c.deviceError (Client.emit env fuel) rc)
  unfold Client.deviceError
  rw [if_neg (by simp [hp])]
  refine emit_fresh env fuel _ _ ⟨h1, h2, h3, rfl, fun _ h => ?_⟩
  cases h

/-! ## Requests that fail -/

/-- The first piece of something that does not end, and the rest. -/
theorem Steps.split_both {σ : Type} {cb : CB σ} {F V B : Bytes → σ → σ} {Rel : σ → σ → Prop} (hL : Laws cb F V B Rel) {p x : HParser} {s y : σ} {u v : Bytes} (h : Steps cb Rel p s (u ++ v) x y) (hu : u ≠ [])
    (hg : Good 0 p) (he : p.errno = .ok) : ∃ p1 s1, execute cb p s u = (p1, s1, u.length) ∧ Good 0 p1 ∧ p1.errno = .ok ∧ Steps cb Rel p s u p1 s1 ∧ Steps cb Rel p1 s1 v x y := by
  obtain ⟨p1, s1, k1, k2, k3, k4⟩ := h.split hL hu hg he
  refine ⟨p1, s1, k1, k2, k3, fun _ _ => ⟨k2, k3, fun rest pos => ?_⟩, k4⟩
  have := execLoop_append hL u rest p s (fresh p) pos (fresh_ok p) he hg
  rw [execute_loop he hu] at k1
  have e : execLoop cb p s (fresh p) u pos = (p1, s1, pos + u.length) := by rw [execLoop_pos, k1]
  rw [e] at this
  unfold andThen at this
  dsimp only at this
  rw [if_pos k3, ← execLoop_pos] at this
  exact this

/-- What the bytes lead to is determined. -/
theorem steps_det {σ : Type} {cb : CB σ} {F V B : Bytes → σ → σ} {Rel : σ → σ → Prop} (hL : Laws cb F V B Rel) {p x x' : HParser} {s y y' : σ} {a : Bytes} (h : Steps cb Rel p s a x y)
    (h' : Steps cb Rel p s a x' y') (hg : Good 0 p) (he : p.errno = .ok) (hf : fresh x' = {}) : x = x' ∧ y = y' := by
  obtain ⟨-, e1, k1⟩ := h hg he
  obtain ⟨-, e2, k2⟩ := h' hg he
  have k := ((k1 [] 0).symm hL).trans hL (k2 [] 0)
  rw [execLoop_nil, execLoop_nil, leftover_eq hL (fresh_ok x) e1, leftover_eq hL (fresh_ok x') e2] at k
  have h1 : x = x' := k.parser
  subst h1
  have h2 := k.state (Or.inl e1)
  dsimp only at h2
  rw [hf] at h2
  exact ⟨rfl, h2⟩

/-- The client in the middle of data that begins at `q` and `s` and is parsed to the end in `x` and `y`, of which what is in the socket and `more` are missing. -/
def Passing (env : ClientEnv) (B : List CEv) (q : HParser) (s : QData) (whole : Bytes) (x : HParser) (y : QData) (more : Bytes) (c : Client) : Prop :=
  ∃ U p t passed, Mid env { before := B, unread := U, free := true, head := false } c p t ∧ Steps (quietCb env false) QRel q s passed p t ∧
    Steps (quietCb env false) QRel p t (c.sock.rx ++ more) x y ∧ passed ++ (c.sock.rx ++ more) = whole

section
variable {env : ClientEnv} {em : Signal → Client → Client} {L : Setting} (hm : EmMild L.free em) (hg : EmGrows em) (hf : EmFramed em) (hx : EmFresh em)
include hm hg hf hx

theorem inject_both {c : Client} {p x : HParser} {t y : QData} (h : Mid env L c p t) {u v : Bytes} (he : Steps (quietCb env L.head) QRel p t (u ++ v) x y) (hu : u ≠ []) :
    ∃ p1 t1, Mid env L (c.receive env em u) p1 t1 ∧ Steps (quietCb env L.head) QRel p t u p1 t1 ∧ Steps (quietCb env L.head) QRel p1 t1 v x y := by
  have hp0 := h.at_
  subst hp0
  obtain ⟨p2, t2, e1, g1, o1, n0, n1⟩ := Steps.split_both (quietCb_laws env L.head) he hu h.good h.ok
  have hr := inject_rel hm hg hf hx h u
  rw [e1] at hr
  have k1 : Mid env L (c.inject env em u).1 p2 t2 := by
    unfold Client.inject
    dsimp only
    have hp := hr.parser
    have ho := hr.ok (by rw [hp, o1]; simp)
    generalize execute (clientCb env em) c.p { c with parsing := true } u = r at hp ho ⊢
    dsimp only at hp ho
    rw [hp, if_neg (by rw [o1]; simp)]
    exact ⟨rfl, rfl, o1, g1, ho.same ho.parsing.symm rfl rfl rfl rfl rfl rfl rfl rfl rfl rfl rfl⟩
  have k2 : (c.inject env em u).2 = u.length := by
    unfold Client.inject
    dsimp only
    exact hr.consumed
  refine ⟨p2, t2, ?_, n0, n1⟩
  rw [receive_all k1 k2]
  exact k1

end

theorem readyRead_passing {env : ClientEnv} {fuel : Nat} {B : List CEv} {q : HParser} {s : QData} {whole : Bytes} {x : HParser} {y : QData} {more : Bytes} {c : Client} (h : Passing env B q s whole x y more c) :
    Passing env B q s whole x y more (c.readyRead env (Client.emit env fuel)) := by
  have same := h
  obtain ⟨U, p, t, passed, h, hp, hs, hw⟩ := h
  unfold Client.readyRead
  rw [if_neg (by simp [mid_pending h])]
  by_cases h0 : c.sock.rx.length = 0
  · rw [if_pos h0]; exact same
  rw [if_neg h0]
  dsimp only
  generalize hnn : (if c.sock.readBufferSize > 0 then c.sock.readBufferSize - c.d.content.length else c.sock.rx.length) = n
  by_cases hn : n = 0
  · rw [if_pos hn]; exact same
  rw [if_neg hn]
  have hm := mid_unread h (c.sock.rx.drop n)
  have hne : c.sock.rx.take n ≠ [] := by
    intro e
    have := congrArg List.length e
    simp only [List.length_take, List.length_nil] at this
    omega
  have hsplit : c.sock.rx ++ more = c.sock.rx.take n ++ (c.sock.rx.drop n ++ more) := by rw [← List.append_assoc, List.take_append_drop]
  rw [hsplit] at hs hw
  obtain ⟨p1, t1, k1, k0, k2⟩ := inject_both (emit_mild env true fuel) (emit_log env fuel) (emit_framed env fuel) (emit_fresh env fuel)
    (L := { before := B, unread := c.sock.rx.drop n, free := true, head := false }) hm hs hne
  have hrx1 := k1.told.rx
  dsimp only at hrx1
  refine ⟨_, p1, t1, passed ++ c.sock.rx.take n, k1, hp.trans (quietCb_laws env false) k0, ?_, ?_⟩
  · rw [hrx1]; exact k2
  · rw [hrx1, List.append_assoc]; exact hw

theorem run_passing {env : ClientEnv} {fuel : Nat} {B : List CEv} {q : HParser} {s : QData} {whole : Bytes} {x : HParser} {y : QData} :
    ∀ {inputs : List CInput} {c : Client} {more : Bytes}, (∀ i ∈ inputs, Steady i) → Passing env B q s whole x y (incoming inputs ++ more) c → Passing env B q s whole x y more (c.run env fuel inputs) := by
  intro inputs
  induction inputs with
  | nil => intro c more _ h; exact h
  | cons i inputs ih =>
    intro c more hs h
    have hs' : ∀ i ∈ inputs, Steady i := fun j hj => hs j (by simp [hj])
    have hi := hs i (by simp)
    have hap : ∀ j, (∀ bs, j ≠ .arrive bs) → incoming (j :: inputs) = incoming inputs := by
      intro j hj
      unfold incoming
      cases j <;> first | rfl | exact absurd rfl (hj _)
    show Passing env B q s whole x y more ((c.step env fuel i).run env fuel inputs)
    refine ih hs' ?_
    cases i with
    | call u =>
      rw [hap _ (by simp)] at h
      obtain ⟨U, p, t, ps, h, hp, hst, hw⟩ := h
      have hmel : UserCall.Mellow true u := by
        cases u <;> first | trivial | exact (hi rfl).elim
      have h1 := mid_call (fuel := fuel) h hmel
      have e1 : (c.step env fuel (.call u)).sock.rx = U := h1.told.rx
      have e2 : c.sock.rx = U := h.told.rx
      exact ⟨U, p, t, ps, h1, hp, by rw [e1, ← e2]; exact hst, by rw [e1, ← e2]; exact hw⟩
    | connected =>
      rw [hap _ (by simp)] at h
      have : c.step env fuel .connected = c := by
        obtain ⟨U, p, t, ps, h, -⟩ := h
        show (if c.sock.state = .connecting then _ else c) = c
        rw [if_neg (by rw [show c.sock.state = .connected from h.told.state]; simp)]
      rw [this]
      exact h
    | error rc => exact hi.elim
    | disconnected => exact hi.elim
    | arrive bs =>
      obtain ⟨U, p, t, ps, h, hp, hst, hw⟩ := h
      have e1 : c.step env fuel (.arrive bs) = { c with sock := { c.sock with rx := c.sock.rx ++ bs } } := if_pos (Or.inl h.told.state)
      rw [e1]
      have e2 : c.sock.rx ++ bs ++ (incoming inputs ++ more) = c.sock.rx ++ (incoming (.arrive bs :: inputs) ++ more) := by
        show _ = c.sock.rx ++ (bs ++ incoming inputs ++ more)
        simp
      refine ⟨_, p, t, ps, mid_unread h (c.sock.rx ++ bs), hp, ?_, ?_⟩
      · dsimp only
        rw [e2]
        exact hst
      · dsimp only
        rw [e2]
        exact hw
    | readyRead =>
      rw [hap _ (by simp)] at h
      exact readyRead_passing h
    | unsent b =>
      rw [hap _ (by simp)] at h
      obtain ⟨U, p, t, ps, h, hst⟩ := h
      exact ⟨U, p, t, ps, ⟨h.parsing, h.at_, h.ok, h.good, h.told.same rfl rfl rfl rfl rfl rfl rfl rfl rfl rfl rfl rfl⟩, hst⟩
    | timeout =>
      rw [hap _ (by simp)] at h
      by_cases h0 : c.timers = 0
      · have : c.step env fuel .timeout = c := if_pos h0
        rw [this]
        exact h
      · have e : c.step env fuel .timeout = { c with timers := c.timers - 1 }.readyRead env (Client.emit env fuel) := if_neg h0
        rw [e]
        obtain ⟨U, p, t, ps, h, hst⟩ := h
        exact readyRead_passing (c := { c with timers := c.timers - 1 }) ⟨U, p, t, ps, ⟨h.parsing, h.at_, h.ok, h.good, h.told.same rfl rfl rfl rfl rfl rfl rfl rfl rfl rfl rfl rfl⟩, hst⟩
    | tick ms =>
      rw [hap _ (by simp)] at h
      obtain ⟨U, p, t, ps, h, hst⟩ := h
      exact ⟨U, p, t, ps, ⟨h.parsing, h.at_, h.ok, h.good, h.told.same rfl rfl rfl rfl rfl rfl rfl rfl rfl rfl rfl rfl⟩, hst⟩

/-- The client when a request is about to fail outside of the headers. -/
structure Clean (c : Client) : Prop where
  pending : c.responsePending = true
  parsing : c.parsing = false
  field : c.d.field = []
  value : c.d.value = []
  decoder : c.contentDecoder = none

theorem begins_clean {env : ClientEnv} {fuel : Nat} {c : Client} (ht : Top c) (hf : Fresh c) (h : Expecting c) {hd : RHead} {body : Bytes} {inputs : List CInput}
    (ha : Begins c.request hd body inputs) (hz : ¬ Gzipped hd.shown ∨ env.inflate = none)
    (ho : OutsideHeaders hd ((incoming inputs).length - (c.run env fuel inputs).sock.rx.length)) : Clean (c.run env fuel inputs) := by
  obtain ⟨t, h1, h2⟩ := awaiting_mid env true false h.pending h.connected (by simp) (mellow_true h.onHeaders) (mellow_true h.onContent) (by simp [ha.get]) ht hf
  have hL := quietCb_laws env false
  obtain ⟨e1, e2⟩ := quiet_pushed h2 hd
  have hpart := steps_part hL (MB := qBegin) (fun _ _ => rfl) hd ha.wf body ha.more c.p h2.ok h2.state h2.nread t
    { t with d := { t.d with headers := hd.shown, content := [], lastWasValue := false }, sig := [.headersCompleted (num hd.status) hd.shown], gz := env.inflate.isSome && gzipped hd.shown } (fun q _ hk => by
      have e0 : quietCb env false .headersComplete q (told qF qV (qBegin t) hd.headers) = (q, qHead env q.status (told qF qV (qBegin t) hd.headers)) := rfl
      rw [e0, hk.status, e1]
      unfold qHead
      rw [if_neg ha.final]
      dsimp only
      rw [e2, told_content, h2.gz, h2.odd, h2.sig]
      rfl)
  have hgz : (env.inflate.isSome && gzipped hd.shown) = false := by
    rcases hz with hz | hz
    · rw [← gzipped_iff] at hz; simp [hz]
    · rw [hz]; rfl
  rw [hgz] at hpart
  obtain ⟨more, hmore⟩ := ha.whole
  obtain ⟨x, piece, -, hxy⟩ := hpart body [] (by simp)
  have hpass := run_passing (fuel := fuel) (more := more) ha.steady (c := c) ⟨_, _, t, [], h1, Steps.nil hL _ _, by rw [hf.rx, List.nil_append, hmore]; exact hxy, by rw [hf.rx]⟩
  obtain ⟨U, p, t', passed, m1, m2, -, m4⟩ := hpass
  simp only [List.nil_append] at m4
  generalize c.run env fuel inputs = c' at ho m1 m4
  have hlen : (incoming inputs).length - c'.sock.rx.length = passed.length := by
    have := congrArg List.length m4
    simp only [List.length_append] at this
    omega
  rw [hlen] at ho
  rw [hmore] at m4
  suffices t'.d.field = [] ∧ t'.d.value = [] ∧ t'.gz = false ∧ t'.odd = false by
    obtain ⟨f1, f2, f3, f4⟩ := this
    refine ⟨mid_pending m1, m1.parsing, m1.told.field.trans f1, m1.told.value.trans f2, ?_⟩
    obtain ⟨l, -, -, l3⟩ := m1.told.log
    rcases l3 with l3 | ⟨all, -, -, l5⟩
    · rw [f4] at l3; cases l3
    · rcases l5 with ⟨-, z, -⟩ | ⟨z, -⟩
      · exact z
      · rw [f3] at z; cases z
  rcases ho with ho | ho
  · have hr : hd.render ++ body = hd.statusLine ++ ((hd.headers.map RHeader.render).flatten ++ b!"\r\n" ++ body) := by
      unfold RHead.render RHead.statusLine
      simp
    rw [hr] at m4
    have hb : t.d.content = [] := h2.content
    have hqb : (qBegin t).d.field = [] ∧ (qBegin t).d.value = [] ∧ (qBegin t).gz = false ∧ (qBegin t).odd = false := by
      refine ⟨h2.field, h2.value, h2.gz, ?_⟩
      show (t.odd || !t.d.content.isEmpty || t.gz) = false
      rw [h2.odd, h2.gz, hb]; rfl
    obtain ⟨v, hv⟩ : ∃ v, hd.statusLine = passed ++ v := by
      rcases List.append_eq_append_iff.1 m4 with ⟨a, k1, k2⟩ | ⟨a, k1, k2⟩
      · exact ⟨a, k1⟩
      · have : a = [] := by
          have := congrArg List.length k1
          simp only [List.length_append] at this
          exact List.length_eq_zero_iff.1 (by omega)
        exact ⟨[], by rw [k1, this]; simp⟩
    have hq0 : c.p = at_ c.p .startRes c.p.hstate c.p.index c.p.nread := by rw [← h2.state]; rfl
    have hsz := ha.wf.size
    have hlr : hd.statusLine.length ≤ hd.render.length := by
      have := congrArg List.length hr
      simp only [List.length_append] at this
      have h0 : hd.render.length + body.length = hd.statusLine.length + ((hd.headers.map RHeader.render).flatten.length + 2 + body.length) := this
      omega
    have hnr := h2.nread
    by_cases hv0 : v = []
    · rw [hv0, List.append_nil] at hv
      have k := steps_line hL (MB := qBegin) (fun _ _ => rfl) hd c.p h2.ok c.p.hstate c.p.index c.p.nread t ha.wf.major ha.wf.minor ha.wf.status ha.wf.reason (by
        change _ + hd.statusLine.length ≤ _; unfold maxHeaderSize; omega)
      rw [← hq0] at k
      rw [← hv] at m2
      obtain ⟨-, rfl⟩ := steps_det hL m2 k h2.good h2.ok rfl
      exact hqb
    · obtain ⟨y, s', f1, f2, f3⟩ := steps_linePart hL (MB := qBegin) (fun _ _ => rfl) hd c.p h2.ok c.p.hstate c.p.index c.p.nread t ha.wf.major ha.wf.minor ha.wf.status ha.wf.reason (by
        change _ + hd.statusLine.length ≤ _; unfold maxHeaderSize; omega) passed v hv hv0
      rw [← hq0] at f3
      obtain ⟨-, rfl⟩ := steps_det hL m2 f3 h2.good h2.ok f1
      rcases f2 with rfl | rfl
      · exact ⟨h2.field, h2.value, h2.gz, h2.odd⟩
      · exact hqb
  · obtain ⟨u, k1, k2⟩ : ∃ u, passed = hd.render ++ u ∧ body = u ++ (c'.sock.rx ++ more) := by
      rcases List.append_eq_append_iff.1 m4 with ⟨a, k1, k2⟩ | ⟨a, k1, k2⟩
      · have : a = [] := by
          have := congrArg List.length k1
          simp only [List.length_append] at this
          exact List.length_eq_zero_iff.1 (by omega)
        subst this
        rw [List.append_nil] at k1
        exact ⟨[], by rw [k1]; simp, by rw [k2]; simp⟩
      · exact ⟨a, k1, k2⟩
    obtain ⟨y, piece', f1, f2⟩ := hpart u _ k2
    rw [← k1] at f2
    obtain ⟨-, rfl⟩ := steps_det hL m2 f2 h2.good h2.ok f1.1
    refine ⟨h2.field, h2.value, rfl, ?_⟩
    show (t.odd || (!piece'.isEmpty && false)) = false
    rw [h2.odd]; simp

/-- The failure. -/
theorem failure_fresh {env : ClientEnv} {fuel : Nat} {c : Client} (h : Clean c) {i : CInput} (hi : Failure i) : Fresh (c.step env fuel i) := by
  cases i with
  | error rc => exact error_fresh h.pending h.field h.value h.decoder rc
  | call u =>
    have hu : u = .abort := hi
    subst hu
    show Fresh (c.abort (Client.emit env fuel))
    unfold Client.abort
    dsimp only
    have hp : ({ (c.add .abort) with sock := c.sock.abort } : Client).responsePending = true := h.pending
    rw [if_pos hp]
    refine emit_fresh env fuel _ _ ⟨h.field, h.value, h.decoder, rfl, fun _ h => ?_⟩
    cases h
  | _ => exact hi.elim

theorem statusLine_render (h : RHead) : h.render = h.statusLine ++ ((h.headers.map RHeader.render).flatten ++ b!"\r\n") := by
  unfold RHead.render RHead.statusLine
  simp

/-- In the status line. -/
theorem line_clean {env : ClientEnv} {hd : Bool} {h : RHead} (hw : h.Wf) {p0 p : HParser} {t0 t : QData} {passed : Bytes} (h2 : Await p0 t0) (m2 : Steps (quietCb env hd) QRel p0 t0 passed p t)
    {v : Bytes} (hv : h.statusLine = passed ++ v) : t.d.field = [] ∧ t.d.value = [] ∧ t.gz = false ∧ t.odd = false := by
  have hL := quietCb_laws env hd
  have hb : t0.d.content = [] := h2.content
  have hqb : (qBegin t0).d.field = [] ∧ (qBegin t0).d.value = [] ∧ (qBegin t0).gz = false ∧ (qBegin t0).odd = false := by
    refine ⟨h2.field, h2.value, h2.gz, ?_⟩
    show (t0.odd || !t0.d.content.isEmpty || t0.gz) = false
    rw [h2.odd, h2.gz, hb]; rfl
  have hq0 : p0 = at_ p0 .startRes p0.hstate p0.index p0.nread := by rw [← h2.state]; rfl
  have hsz := hw.size
  have hlr : h.statusLine.length ≤ h.render.length := by
    rw [statusLine_render h, List.length_append]; omega
  have hnr := h2.nread
  by_cases hv0 : v = []
  · rw [hv0, List.append_nil] at hv
    have k := steps_line hL (MB := qBegin) (fun _ _ => rfl) h p0 h2.ok p0.hstate p0.index p0.nread t0 hw.major hw.minor hw.status hw.reason (by
      change _ + h.statusLine.length ≤ _; unfold maxHeaderSize; omega)
    rw [← hq0] at k
    rw [← hv] at m2
    obtain ⟨-, rfl⟩ := steps_det hL m2 k h2.good h2.ok rfl
    exact hqb
  · obtain ⟨y, s', f1, f2, f3⟩ := steps_linePart hL (MB := qBegin) (fun _ _ => rfl) h p0 h2.ok p0.hstate p0.index p0.nread t0 hw.major hw.minor hw.status hw.reason (by
      change _ + h.statusLine.length ≤ _; unfold maxHeaderSize; omega) passed v hv hv0
    rw [← hq0] at f3
    obtain ⟨-, rfl⟩ := steps_det hL m2 f3 h2.good h2.ok f1
    rcases f2 with rfl | rfl
    · exact ⟨h2.field, h2.value, h2.gz, h2.odd⟩
    · exact hqb

/-- After the headers. -/
theorem body_told {env : ClientEnv} {m : Response} (hw : m.Wf) (hst : num m.head.status ≠ 100) {p0 p : HParser} {t0 t : QData} {u : Bytes} (h2 : Await p0 t0)
    (m2 : Steps (quietCb env false) QRel p0 t0 (m.head.render ++ u) p t) {v : Bytes} (hv : m.wire = u ++ v) (hn : v ≠ []) : t.d.field = [] ∧ t.d.value = [] ∧
      t.gz = (env.inflate.isSome && gzipped m.head.shown) ∧ t.odd = false ∧ t.sig = [.headersCompleted (num m.head.status) m.head.shown] ∧ t.d.headers = m.head.shown ∧ p.status = num m.head.status := by
  have hL := quietCb_laws env false
  obtain ⟨e1, e2⟩ := quiet_pushed h2 m.head
  have hpart := steps_part hL (MB := qBegin) (fun _ _ => rfl) m.head hw.head u (Or.inr ⟨m.wire, m.content, v, hw.body, hv, hn⟩) p0 h2.ok h2.state h2.nread t0
    { t0 with d := { t0.d with headers := m.head.shown, content := [], lastWasValue := false }, sig := [.headersCompleted (num m.head.status) m.head.shown], gz := env.inflate.isSome && gzipped m.head.shown } (fun q _ hk => by
      have e0 : quietCb env false .headersComplete q (told qF qV (qBegin t0) m.head.headers) = (q, qHead env q.status (told qF qV (qBegin t0) m.head.headers)) := rfl
      rw [e0, hk.status, e1]
      unfold qHead
      rw [if_neg hst]
      dsimp only
      rw [e2, told_content, h2.gz, h2.odd, h2.sig]
      rfl)
  obtain ⟨y, piece', f1, f2⟩ := hpart u [] (by simp)
  obtain ⟨rfl, rfl⟩ := steps_det hL m2 f2 h2.good h2.ok f1.1
  refine ⟨h2.field, h2.value, rfl, ?_, rfl, rfl, f1.2⟩
  show (t0.odd || (!piece'.isEmpty && false)) = false
  rw [h2.odd]; simp

theorem no_gzip {env : ClientEnv} {hs : Headers} (hz : ¬ Gzipped hs ∨ env.inflate = none) : (env.inflate.isSome && gzipped hs) = false := by
  rcases hz with hz | hz
  · rw [← gzipped_iff] at hz; simp [hz]
  · rw [hz]; rfl

/-- After the headers, outside of compressed content. -/
theorem body_clean {env : ClientEnv} {m : Response} (hw : m.Wf) (hst : num m.head.status ≠ 100) (hz : ¬ Gzipped m.head.shown ∨ env.inflate = none) {p0 p : HParser} {t0 t : QData} {u : Bytes} (h2 : Await p0 t0)
    (m2 : Steps (quietCb env false) QRel p0 t0 (m.head.render ++ u) p t) {v : Bytes} (hv : m.wire = u ++ v) (hn : v ≠ []) : t.d.field = [] ∧ t.d.value = [] ∧ t.gz = false ∧ t.odd = false := by
  obtain ⟨h3, h4, h5, h6, -⟩ := body_told hw hst h2 m2 hv hn
  exact ⟨h3, h4, h5.trans (no_gzip hz), h6⟩

theorem mid_clean {env : ClientEnv} {L : Setting} {c : Client} {p : HParser} {t : QData} (m1 : Mid env L c p t) (h : t.d.field = [] ∧ t.d.value = [] ∧ t.gz = false ∧ t.odd = false) : Clean c := by
  obtain ⟨f1, f2, f3, f4⟩ := h
  refine ⟨mid_pending m1, m1.parsing, m1.told.field.trans f1, m1.told.value.trans f2, ?_⟩
  obtain ⟨l, -, -, l3⟩ := m1.told.log
  rcases l3 with l3 | ⟨all, -, -, l5⟩
  · rw [f4] at l3; cases l3
  · rcases l5 with ⟨-, z, -⟩ | ⟨z, -⟩
    · exact z
    · rw [f3] at z; cases z

theorem mem_short {α : Type} {l : List α} {a : α} (h : l.length ≤ 1) (ha : a ∈ l) : l = [a] := by
  match l, h, ha with
  | [b], _, ha => rw [List.mem_singleton.1 ha]

/-- A beginning of an answer, up to a point outside of the headers and of compressed content. -/
theorem partly_clean {env : ClientEnv} {fuel : Nat} {c : Client} (ht : Top c) (hf : Fresh c) (h : Expecting c) {interims : List Response} {m : Response} {inputs : List CInput}
    (ha : Begun c.request interims m inputs) {n : Nat} (hn : n = (incoming inputs).length - (c.run env fuel inputs).sock.rx.length) (ho : Outside interims m.head n)
    (hz : Uncompressed env c.request interims m.head n) : Fresh (c.run env fuel inputs) ∨ Clean (c.run env fuel inputs) := by
  obtain ⟨hd, d1, d2⟩ := fits_of ha.answers
  obtain ⟨t, h1, h2⟩ := awaiting_mid env true hd h.pending h.connected (by simp) (mellow_true h.onHeaders) (mellow_true h.onContent) d1 ht hf
  have hp := await_pos (env := env) (O := interims) d2 ha.final h2 interims fun i hi => ⟨ha.continues i hi, hi⟩
  obtain ⟨more, hmore⟩ := ha.begins
  have hlen : (incoming inputs).length + more.length = (interims.map Response.render).flatten.length + m.render.length := by
    have := congrArg List.length hmore
    simpa using this
  rcases run_paced_more (fuel := fuel) (more := more) d2 ha.final ha.steady h1 hp (by rw [hf.rx, List.nil_append]; exact hmore) (by rw [List.length_map]; exact ha.few) with ⟨k, -⟩ | ⟨U, p, t', is, v, m1, m2, m3, m4⟩
  · exact Or.inl k.2
  right
  refine mid_clean m1 ?_
  generalize c.run env fuel inputs = c' at hn m1 m3
  have hl3 : c'.sock.rx.length + more.length = is.flatten.length + v.length := by
    have := congrArg List.length m3
    simpa using this
  have hsl : ∀ (hd : RHead), hd.statusLine.length ≤ hd.render.length := fun hd => by rw [statusLine_render hd, List.length_append]; omega
  -- a point in the status line
  have line : ∀ (r : Response) (p0 : HParser) (t0 : QData) (passed v : Bytes), r.head.Wf → Await p0 t0 → Steps (quietCb env hd) QRel p0 t0 passed p t' → r.render = passed ++ v →
      passed.length ≤ r.head.statusLine.length → t'.d.field = [] ∧ t'.d.value = [] ∧ t'.gz = false ∧ t'.odd = false := by
    intro r p0 t0 passed v hw q1 q2 q3 q4
    have hr : r.render = r.head.statusLine ++ ((r.head.headers.map RHeader.render).flatten ++ b!"\r\n" ++ r.wire) := by
      unfold Response.render
      rw [statusLine_render]; simp
    rw [hr] at q3
    rcases List.append_eq_append_iff.1 q3 with ⟨a, k1, k2⟩ | ⟨a, k1, k2⟩
    · have : a = [] := by
        have := congrArg List.length k1
        simp only [List.length_append] at this
        exact List.length_eq_zero_iff.1 (by omega)
      exact line_clean hw q1 q2 (v := []) (by rw [k1, this]; simp)
    · exact line_clean hw q1 q2 k1
  have hwf : m.head.Wf := by
    cases hd with
    | false => exact (show m.Wf from d2).head
    | true => exact (show m.head.Wf ∧ _ from d2).1
  cases m2 with
  | final v hlast htr =>
    obtain ⟨p0, t0, passed, q1, q2, q3⟩ := htr
    have hlm : m.render.length = passed.length + v.length := by rw [q3, List.length_append]
    have hnn : n = (interims.map Response.render).flatten.length + passed.length := by
      simp only [List.flatten_nil, List.length_nil] at hl3
      omega
    have hout : OutsideHeaders m.head passed.length := by
      cases interims with
      | nil => rw [hnn] at ho; simpa [Outside] using ho
      | cons i is =>
        have : is = [] := by
          have := ha.few
          simp only [List.length_cons] at this
          exact List.length_eq_zero_iff.1 (by omega)
        subst this
        simp only [List.map_cons, List.map_nil, List.flatten_cons, List.flatten_nil, List.append_nil] at hnn
        rcases ho with ho | ⟨-, ho⟩
        · have e : i.render.length = i.head.render.length + i.wire.length := by unfold Response.render; simp
          have := hsl i.head
          have h2 : 0 < i.head.render.length - i.head.statusLine.length := by
            rw [statusLine_render i.head]; simp only [List.length_append]; have : (b!"\r\n" : Bytes).length = 2 := rfl
            omega
          omega
        · rw [hnn, Nat.add_sub_cancel_left] at ho
          exact ho
    rcases hout with hout | hout
    · exact line m p0 t0 passed v hwf q1 q2 q3 hout
    · obtain ⟨u, k1, k2⟩ : ∃ u, passed = m.head.render ++ u ∧ m.wire = u ++ v := by
        have q3' : m.head.render ++ m.wire = passed ++ v := q3
        rcases List.append_eq_append_iff.1 q3' with ⟨a, k1, k2⟩ | ⟨a, k1, k2⟩
        · exact ⟨a, k1, k2⟩
        · have : a = [] := by
            have := congrArg List.length k1
            simp only [List.length_append] at this
            exact List.length_eq_zero_iff.1 (by omega)
          subst this
          exact ⟨[], by rw [k1]; simp, by rw [List.nil_append]; simpa using k2.symm⟩
      cases hd with
      | true =>
        exfalso
        have e : m.wire = [] := (show _ ∧ _ ∧ _ from d2).2.1
        rw [e] at k2
        exact hlast.ne (List.append_eq_nil_iff.1 k2.symm).2
      | false =>
        subst k1
        refine body_clean d2 ha.final ?_ q1 q2 k2 hlast.ne
        rcases hz with hz | hz | hz | hz
        · exact absurd (d1.2 hz) (by simp)
        · exact Or.inl hz
        · exact Or.inr hz
        · omega
  | interim v i is hint htr hi _ =>
    obtain ⟨p0, t0, passed, q1, q2, q3⟩ := htr
    have e : interims = [i] := mem_short ha.few hi
    subst e
    have hlm : i.render.length = passed.length + v.length := by rw [q3, List.length_append]
    have hv := List.length_pos_iff.2 hint.1
    simp only [List.map_cons, List.map_nil, List.flatten_cons, List.flatten_nil, List.append_nil, List.length_append] at hl3 hlen
    have his : is = [] := by
      simp only [List.length_cons, List.length_map] at m4
      exact List.length_eq_zero_iff.1 (by omega)
    subst his
    simp only [List.map_nil, List.flatten_nil, List.append_nil, List.length_nil] at hl3
    have hnn : n = passed.length := by omega
    refine line i p0 t0 passed v (ha.continues i (by simp)).wf.head q1 q2 q3 ?_
    rcases ho with ho | ⟨ho, -⟩ <;> omega

theorem served_fresh {env : ClientEnv} {fuel : Nat} {c : Client} (h : WellServed env fuel c) : Top c ∧ Fresh c := by
  induction h with
  | new a b c d => exact ⟨new_top a b c d, new_fresh a b c d⟩
  | other i hi _ ih => exact ⟨ih.1.step env fuel i, step_fresh env fuel ih.2 fun bs e => absurd e (hi bs)⟩
  | response _ hw ha ih => exact ⟨ih.1.run env fuel _, (answer_reports ih.1 ih.2 hw ha).2⟩
  | paced _ hw ha hrx ih =>
    refine ⟨ih.1.run env fuel _, ?_⟩
    rcases paced_reports (fuel := fuel) ih.1 ih.2 hw ha with h | h
    · exact h.2
    · exact absurd hrx h.2
  | @closed c h content inputs rc _ hw ha hz hrx ih =>
    refine ⟨ih.1.run env fuel _, ?_⟩
    obtain ⟨x, y, k1, k2⟩ := lasts_within (env := env) (fuel := fuel) ih.1 ih.2 hw ha
    have k := k2 _ k1 hrx
    have e : c.run env fuel (inputs ++ [.error rc]) = (c.run env fuel inputs).step env fuel (.error rc) := List.foldl_append ..
    rw [e]
    exact error_fresh k.pending k.field k.value (k.decoder hz) rc
  | @failed c h body inputs i _ hw ha hz ho hi ih =>
    refine ⟨ih.1.run env fuel _, ?_⟩
    have e : c.run env fuel (inputs ++ [i]) = (c.run env fuel inputs).step env fuel i := List.foldl_append ..
    rw [e]
    exact failure_fresh (begins_clean ih.1 ih.2 hw ha hz ho) hi
  | @broken c interims m inputs n i _ hw ha hn ho hz hi ih =>
    refine ⟨ih.1.run env fuel _, ?_⟩
    have e : c.run env fuel (inputs ++ [i]) = (c.run env fuel inputs).step env fuel i := List.foldl_append ..
    rw [e]
    rcases partly_clean (fuel := fuel) ih.1 ih.2 hw ha hn ho hz with k | k
    · exact step_fresh env fuel k fun bs e => by rw [e] at hi; exact hi.elim
    · exact failure_fresh k hi

end Pillow
