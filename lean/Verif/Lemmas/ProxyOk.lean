import Verif.Lemmas.Proxy
set_option linter.unusedSimpArgs false
set_option linter.unusedVariables false
/-!
# The invariant of a pipe
-/
namespace Pillow.Props
open Pillow Pillow.Spec

/-- What follows when the response has ended, if it has. -/
def Ends (d : List Ev) : Prop := d = [] ∨ (∃ d', d = .completed :: d') ∨ ∃ f u d', d = .closed f u :: d'

/-- Events of a relayed response. -/
def Relay (h : RespHead) (b : List Ev) : Prop :=
  ∀ e ∈ b, (∃ bs, e = .recv bs) ∨ (∃ bs, e = .body bs ∧ h.chunked = false) ∨ ∃ bs, e = .chunk bs ∧ h.chunked = true

/-- Nothing was sent. -/
structure Form0 (x : Piped) (p d : List Ev) : Prop where
  only : OnlyRecv p
  sent : x.headersSent = false
  none : x.outcome = none ∨ x.broken = true
  unread : x.unread = x.arrived
  gone : d ≠ [] → x.left = true

/-- The upstream reply is being relayed. -/
structure Form1 (u : Upstream) (r : ReqView) (x : Piped) (p d : List Ev) (p₁ : List Ev) (h : RespHead) (p₂ : List Ev) : Prop where
  sent : x.headersSent = true
  split : p = p₁ ++ .head h :: p₂
  only : OnlyRecv p₁
  head : HeadSpec r (-1) u.status u.headers h
  relay : Relay h p₂
  pre : Upstream.Honest u x.arrived → contentOf p₂ <+: x.arrived
  all : Upstream.Honest u x.arrived → d = [] → contentOf p₂ ++ x.unread = x.arrived
  closed : x.left = false → (∃ f v d', d = .closed f v :: d') → (∃ f, x.outcome = some f ∧ u.isError f = false) ∧ (Upstream.Honest u x.arrived → contentOf p₂ ++ x.unread = x.arrived)
  long : h.len < 0 → r.method ≠ b!"HEAD" → (d = [] → .completed ∉ x.s.stack) ∧ ∀ d', d ≠ .completed :: d'

/-- The request is answered with 503. -/
structure Form2 (u : Upstream) (r : ReqView) (x : Piped) (p : List Ev) : Prop where
  sent : x.headersSent = false
  shape : Unavailable r p
  failed : ∃ f, x.outcome = some f ∧ u.isError f = true

structure Prog (u : Upstream) (a : List Ev) (r : ReqView) (x : Piped) (p d : List Ev) : Prop where
  log : x.s.c.log = a ++ p ++ d
  notEnded : NotEnded p
  ends : Ends d
  still : d = [] → NoAnswer x.s.stack
  broken : x.broken = false → d = []
  whole : x.broken = true → d ≠ [] ∨ x.left = true
  form : Form0 x p d ∨ (∃ p₁ h p₂, Form1 u r x p d p₁ h p₂) ∨ Form2 u r x p

structure PipeOk (u : Upstream) (a : List Ev) (r : ReqView) (x : Piped) : Prop where
  reach : Reach Proper x.s
  task : ∀ stk k, x.task = some (stk, k) → x.headersSent = true ∧ (k = .pump → x.outcome = none) ∧ (k = .finish → ∃ f, x.outcome = some f ∧ u.isError f = false) ∧
    Conf.inEnv ⟨x.s.c, stk⟩ = true
  done : ∀ f, x.outcome = some f → u.isError f = false → x.task = none → x.broken = true
  prog : ∃ p d, Prog u a r x p d

theorem moved_broken {x : Piped} {s' : Conf} {es : List Ev} (h : s'.c.log = x.s.c.log ++ es) : (x.moved s').broken = (x.broken || es.any Ev.ends) := by
  unfold Piped.moved
  rw [h, List.drop_left]

theorem not_ended_any {es : List Ev} (h : NotEnded es) : es.any Ev.ends = false := by
  rw [List.any_eq_false]
  intro e he
  obtain ⟨h1, h2⟩ := h e he
  cases e <;> simp_all [Ev.ends]

theorem ends_any {d : List Ev} (h : Ends d) : d.any Ev.ends = decide (d ≠ []) := by
  rcases h with rfl | ⟨d', rfl⟩ | ⟨f, u, d', rfl⟩ <;> simp [Ev.ends]

theorem call_reach : ∀ {ls : List Label} {s s' : Conf}, Reach Proper s → .init ∉ ls → s.run ls = some s' → Reach Proper s'
  | [], s, s', h, _, hr => by cases hr; exact h
  | l :: ls, s, s', h, hl, hr => by
    cases hs : s.step l with
    | none => rw [Conf.run, hs] at hr; cases hr
    | some t =>
      rw [Conf.run, hs] at hr
      exact call_reach (.step _ _ l h (fun e => absurd (by simp [e]) hl) hs) (fun hm => hl (by simp [hm])) hr

theorem run_fault : ∀ {ls : List Label} {s s' : Conf}, ls ≠ [] → s.run ls = some s' → s.c.fault = none
  | [], s, s', h, _ => absurd rfl h
  | l :: ls, s, s', _, hr => by
    cases hf : s.c.fault with
    | none => rfl
    | some f =>
      rw [Conf.run] at hr
      have : s.step l = none := by unfold Conf.step; simp [hf]
      rw [this] at hr
      cases hr

theorem notEnded_append {a b : List Ev} (ha : NotEnded a) (hb : NotEnded b) : NotEnded (a ++ b) := by
  intro e he
  rcases List.mem_append.1 he with he | he
  · exact ha e he
  · exact hb e he

theorem onlyRecv_notEnded {a : List Ev} (h : OnlyRecv a) : NotEnded a := by
  intro e he
  obtain ⟨bs, rfl⟩ := h e he
  simp

/-- What comes after a head, if it is no output. -/
theorem quiet_after_head {s : Conf} (hr : Reach Proper s) {a b c d : List Ev} {h : RespHead} (e : s.c.log = a ++ .head h :: (b ++ c) ++ d) (hn : NotEnded (b ++ c)) (ho : NoOutput c) : OnlyRecv c := by
  obtain ⟨-, ph, hruns⟩ := reach_log hr
  rw [List.append_assoc, List.cons_append] at e
  obtain ⟨r', h1, -, -, h4⟩ := head_split hruns e
  obtain ⟨m, p1, p2⟩ := h4.append
  obtain ⟨w, -⟩ := writing_path r' h (b ++ c) p1 hn
  intro e he
  have ho' := ho e he
  rcases w.only e (by simp [he]) with k | ⟨bs, rfl, -⟩ | ⟨bs, rfl, -⟩ | ⟨rfl, -⟩
  · exact k
  · cases ho'
  · cases ho'
  · cases ho'

theorem honest_pre {u : Upstream} {a b : Bytes} (h : Upstream.Honest u (a ++ b)) : Upstream.Honest u a := by
  intro hd
  have := h hd
  rw [List.length_append] at this
  omega

theorem relay_append {h : RespHead} {a b : List Ev} (ha : Relay h a) (hb : Relay h b) : Relay h (a ++ b) := by
  intro e he
  rcases List.mem_append.1 he with he | he
  · exact ha e he
  · exact hb e he

theorem onlyRecv_relay {h : RespHead} {a : List Ev} (ha : OnlyRecv a) : Relay h a := fun e he => .inl (ha e he)

theorem onlyRecv_append {a b : List Ev} (ha : OnlyRecv a) (hb : OnlyRecv b) : OnlyRecv (a ++ b) := by
  intro e he
  rcases List.mem_append.1 he with he | he
  · exact ha e he
  · exact hb e he

theorem onlyRecv_content {a : List Ev} (h : OnlyRecv a) : contentOf a = [] := by
  apply contentOf_nil
  intro e he
  obtain ⟨bs, rfl⟩ := h e he
  rfl

variable {u : Upstream} {a : List Ev} {r : ReqView}

/-- The connection moves. -/
theorem conn_ok {x x' : Piped} {m : Label} (ha : WithHandler a r) (h : PipeOk u a r x) (hm : Proper x.s m) (hw : Open a x.s.c.log → ∀ c, m = .call c → ¬ Writes c)
    (hx : x.step u (.conn m) = some x') : PipeOk u a r x' := by
  obtain ⟨hr, ht, hdone, p, d, hp⟩ := h
  obtain ⟨s', hs, rfl⟩ := Option.map_eq_some_iff.1 (show (x.s.step m).map _ = some x' from hx)
  have hr' : Reach Proper s' := .step _ _ m hr hm hs
  obtain ⟨es, hes⟩ := step_grows hs
  have hb : (x.moved s').broken = (x.broken || es.any Ev.ends) := moved_broken hes
  have hl : (s'.c.log.drop x.s.c.log.length).any Ev.isClosed = es.any Ev.isClosed := by rw [hes, List.drop_left]
  rw [hl]
  refine ⟨hr', fun stk k hk => ?_, fun f h1 h2 h3 => ?_, ?_⟩
  · obtain ⟨k1, k2, k3, k4⟩ := ht stk k hk
    exact ⟨k1, k2, k3, k4⟩
  · have := hdone f h1 h2 h3
    show (x.moved s').broken = true
    rw [hb, this]; rfl
  by_cases hd : d = []
  · subst hd
    obtain ⟨hlog, hne, -, hst, -, hwh, hform⟩ := hp
    rw [List.append_nil] at hlog
    obtain ⟨hst', es', hes', hno⟩ := step_still (hst rfl) (hw ⟨p, hlog, hne⟩) hs
    have : es' = es := List.append_cancel_left (hes'.symm.trans hes)
    subst this
    obtain ⟨e1, d, rfl, hn1, hd⟩ := split_ended es'
    have hd : Ends d := hd
    have hany : (e1 ++ d).any Ev.ends = decide (d ≠ []) := by rw [List.any_append, not_ended_any hn1, ends_any hd, Bool.false_or]
    rw [hany] at hb
    have hlog' : s'.c.log = a ++ (p ++ e1) ++ d := by rw [hes, hlog]; simp
    have hne' := notEnded_append hne hn1
    have hno1 : NoOutput e1 := fun e he => hno e (by simp [he])
    refine ⟨p ++ e1, d, hlog', hne', hd, fun _ => hst', fun h => ?_, fun h => ?_, ?_⟩
    · have h : (x.moved s').broken = false := h
      rw [hb] at h
      simpa using (Bool.or_eq_false_iff.1 h).2
    · have h : (x.moved s').broken = true := h
      rw [hb] at h
      rcases Bool.or_eq_true_iff.1 h with h | h
      · right
        show (x.left || _) = true
        rw [(hwh h).resolve_left (by simp)]
        rfl
      · left
        simpa using h
    · rcases hform with f | ⟨p₁, h, p₂, f⟩ | f
      · left
        have hrun : OnlyRecv e1 ∧ ∀ d', d ≠ .completed :: d' := by
          obtain ⟨-, ph, hruns⟩ := reach_log hr'
          rw [hlog'] at hruns
          have h1 : a ++ (p ++ e1) ++ d = (a ++ p) ++ (e1 ++ d) := by simp
          rw [h1] at hruns
          obtain ⟨q, k1, k2⟩ := runs_split hruns
          have := withHandler_busy (withHandler_recv ha f.only) k1
          subst this
          obtain ⟨q2, k3, k4⟩ := k2.append
          obtain ⟨k5, rfl⟩ := busy_path k3 hn1 hno1
          refine ⟨k5, ?_⟩
          rintro d' rfl
          cases k4 with
          | cons _ q1 _ _ _ n1 h3 => cases n1
        refine ⟨onlyRecv_append f.only hrun.1, f.sent, f.none.imp id fun hbr => ?_, f.unread, fun hdn => ?_⟩
        · show (x.moved s').broken = true
          rw [hb, hbr]; rfl
        · show (x.left || (!x.broken && (e1 ++ d).any Ev.isClosed)) = true
          rcases hd with rfl | ⟨d', rfl⟩ | ⟨fo, v, d', rfl⟩
          · exact absurd rfl hdn
          · exact absurd rfl (hrun.2 _)
          · cases hbx : x.broken with
            | true => rw [(hwh hbx).resolve_left (by simp)]; rfl
            | false =>
              have : (e1 ++ Ev.closed fo v :: d').any Ev.isClosed = true := by
                rw [List.any_append, List.any_cons]; simp [Ev.isClosed]
              rw [this]; simp
      · right; left
        have hsplit := f.split
        have hrec : OnlyRecv e1 := quiet_after_head (a := a ++ p₁) (b := p₂) (c := e1) (d := d) (h := h) hr' (by rw [hlog', hsplit]; simp) (fun e he => hne' e (by
          rw [hsplit]
          rcases List.mem_append.1 he with he | he <;> simp [he])) hno1
        have hct : contentOf (p₂ ++ e1) = contentOf p₂ := by rw [contentOf_append, onlyRecv_content hrec, List.append_nil]
        refine ⟨p₁, h, p₂ ++ e1, f.sent, by rw [hsplit]; simp, f.only, f.head, relay_append f.relay (onlyRecv_relay hrec), fun hh => ?_, fun hh _ => ?_, fun hleft hcl => ?_, fun hl hm => ?_⟩
        · rw [hct]; exact f.pre hh
        · rw [hct]; exact f.all hh rfl
        · exfalso
          have hleft : (x.left || (!x.broken && (e1 ++ d).any Ev.isClosed)) = false := hleft
          obtain ⟨l1, l2⟩ := Bool.or_eq_false_iff.1 hleft
          obtain ⟨fo, v, d', rfl⟩ := hcl
          have hc : (e1 ++ .closed fo v :: d').any Ev.isClosed = true := by
            rw [List.any_append, List.any_cons]
            simp [Ev.isClosed]
          rw [hc, Bool.and_true] at l2
          have hbr : x.broken = true := by simpa using l2
          rcases hwh hbr with h | h
          · exact h rfl
          · rw [l1] at h; cases h
        · have hlast : (readys (a ++ p₁)).getLast? = some r := withHandler_readys (withHandler_recv ha f.only)
          obtain ⟨o1, o2⟩ := open_step (a := a ++ p₁) (b := p₂) (h := h) (r := r) hr (hst rfl) (hw ⟨p, hlog, hne⟩) hs (by rw [hlog, hsplit]; simp)
            (fun e he => hne e (by rw [hsplit]; simp [he])) hlast hl hm ((f.long hl hm).1 rfl)
          rw [hes, List.drop_left] at o2
          refine ⟨fun _ => o1, ?_⟩
          rintro d' rfl
          exact o2 (by simp)
      · right; right
        obtain ⟨f1, ⟨p₁, h, p₂, hsplit, hon, hhd, hon2⟩, f3⟩ := f
        have hrec : OnlyRecv e1 := quiet_after_head (a := a ++ p₁) (b := p₂) (c := e1) (d := d) (h := h) hr' (by rw [hlog', hsplit]; simp) (fun e he => hne' e (by
          rw [hsplit]
          rcases List.mem_append.1 he with he | he <;> simp [he])) hno1
        exact ⟨f1, ⟨p₁, h, p₂ ++ e1, by rw [hsplit]; simp, hon, hhd, onlyRecv_append hon2 hrec⟩, f3⟩
  · obtain ⟨hlog, hne, hend, hst, hbr, hwh, hform⟩ := hp
    have hbt : x.broken = true := by
      cases hbb : x.broken with
      | true => rfl
      | false => exact absurd (hbr hbb) hd
    have hb' : (x.moved s').broken = true := by rw [hb, hbt]; rfl
    have hleft : (x.left || (!x.broken && es.any Ev.isClosed)) = x.left := by rw [hbt]; simp
    have hend' : Ends (d ++ es) := by
      rcases hend with rfl | ⟨d', rfl⟩ | ⟨f, u, d', rfl⟩
      · exact absurd rfl hd
      · exact .inr (.inl ⟨d' ++ es, rfl⟩)
      · exact .inr (.inr ⟨f, u, d' ++ es, rfl⟩)
    refine ⟨p, d ++ es, by show s'.c.log = _; rw [hes, hlog]; simp, hne, hend', fun h => absurd (List.append_eq_nil_iff.1 h).1 hd, fun h => ?_, fun _ => .inl fun h => hd (List.append_eq_nil_iff.1 h).1, ?_⟩
    · have h : (x.moved s').broken = false := h
      rw [hb'] at h; cases h
    · rcases hform with f | ⟨p₁, h, p₂, f⟩ | f
      · left
        refine ⟨f.only, f.sent, .inr hb', f.unread, fun _ => ?_⟩
        show (x.left || _) = true
        rw [f.gone hd]; rfl
      · right; left
        refine ⟨p₁, h, p₂, f.sent, f.split, f.only, f.head, f.relay, f.pre, fun _ h => absurd (List.append_eq_nil_iff.1 h).1 hd, fun hl hcl => f.closed ?_ ?_, fun hl hm => ⟨fun h => absurd (List.append_eq_nil_iff.1 h).1 hd, ?_⟩⟩
        · have hl : (x.left || (!x.broken && es.any Ev.isClosed)) = false := hl
          rw [hleft] at hl
          exact hl
        · obtain ⟨fo, v, d', hcl⟩ := hcl
          rcases hend with rfl | ⟨d'', rfl⟩ | ⟨fo', v', d'', rfl⟩
          · exact absurd rfl hd
          · cases hcl
          · exact ⟨_, _, _, rfl⟩
        · intro d' he
          rcases hend with rfl | ⟨d'', rfl⟩ | ⟨fo', v', d'', rfl⟩
          · exact absurd rfl hd
          · exact (f.long hl hm).2 _ rfl
          · cases he
      · right; right
        exact ⟨f.sent, f.shape, f.failed⟩

/-- The rest of a slot. -/
theorem resume_ok {x x' : Piped} {k : PTask} (hr : Reach Proper x.s) (he : x.s.inEnv = true) (hf : x.s.c.fault = none) {p d : List Ev} (hp : Prog u a r x p d) (hs : x.headersSent = true)
    (hk1 : k = .pump → x.outcome = none) (hk2 : k = .finish → ∃ f, x.outcome = some f ∧ u.isError f = false) (hx : x.resume k = some x') : PipeOk u a r x' := by
  obtain ⟨hlog, hne, hend, hst, hbr, hwh, hform⟩ := hp
  have hbroken : x.broken = true → x' = { x with task := none } → PipeOk u a r x' := by
    rintro hb rfl
    refine ⟨hr, fun stk k hk => (by cases hk), fun f h1 h2 h3 => hb, p, d, hlog, hne, hend, hst, hbr, hwh, ?_⟩
    rcases hform with f | ⟨p₁, h, p₂, f⟩ | f
    · exact .inl ⟨f.only, f.sent, f.none, f.unread, f.gone⟩
    · exact .inr (.inl ⟨p₁, h, p₂, f.sent, f.split, f.only, f.head, f.relay, f.pre, f.all, f.closed, f.long⟩)
    · exact .inr (.inr ⟨f.sent, f.shape, f.failed⟩)
  have hopen : x.broken = false → ∃ p₁ h p₂, d = [] ∧ Form1 u r x p d p₁ h p₂ := by
    intro hb
    rcases hform with f | ⟨p₁, h, p₂, f⟩ | f
    · rw [f.sent] at hs; cases hs
    · exact ⟨p₁, h, p₂, hbr hb, f⟩
    · rw [f.sent] at hs; cases hs
  cases k with
  | pump =>
    simp only [Piped.resume] at hx
    by_cases hb : x.broken = true
    · rw [if_pos hb] at hx
      exact hbroken hb (Option.some.inj hx).symm
    · rw [if_neg hb] at hx
      have hb : x.broken = false := by simpa using hb
      obtain ⟨p₁, h, p₂, rfl, f⟩ := hopen hb
      obtain ⟨s', hrun, rfl⟩ := Option.map_eq_some_iff.1 hx
      have hr' := call_reach hr (by simp) hrun
      have hlog' : x.s.c.log = (a ++ p₁) ++ .head h :: p₂ := by rw [hlog, f.split]; simp
      have hne2 : NotEnded p₂ := fun e he => hne e (by rw [f.split]; simp [he])
      rcases content_call hr he hf hlog' hne2 hrun with ⟨hc, rfl⟩ | ⟨hc, hes, hstk⟩
      · have hmb : (x.moved x.s).broken = x.broken := by rw [moved_broken (es := []) (by simp)]; simp
        have hun : Upstream.Honest u x.arrived → x.unread = [] := by
          intro hh
          rcases hc with hc | ⟨h1, h2⟩
          · exact hc
          · exfalso
            have e1 := f.all hh rfl
            have e2 := hh (by rw [← f.head.len]; omega)
            rw [← f.head.len, ← e1, List.length_append] at e2
            omega
        refine ⟨hr, fun stk k hk => (by cases hk), fun f h1 h2 h3 => ?_, p, [], hlog, hne, .inl rfl, hst, fun _ => rfl, fun h => ?_, .inr (.inl ⟨p₁, h, p₂, f.sent, f.split, f.only, f.head, f.relay, f.pre, fun hh _ => ?_, fun _ hcl => ?_, f.long⟩)⟩
        · rw [show x.outcome = some f from h1] at hk1
          cases hk1 rfl
        · have h : (x.moved x.s).broken = true := h
          rw [hmb] at h
          exact hwh h
        · have := f.all hh rfl
          rw [hun hh] at this
          exact this
        · obtain ⟨_, _, _, hcl⟩ := hcl; cases hcl
      · have hev : NotEnded [if h.chunked then Ev.chunk x.unread else Ev.body x.unread] := by
          intro e he
          rw [List.mem_singleton.1 he]
          split <;> simp
        have hmb : (x.moved s').broken = x.broken := by rw [moved_broken hes, not_ended_any hev, Bool.or_false]
        have hrel : Relay h [if h.chunked then Ev.chunk x.unread else Ev.body x.unread] := by
          intro e he
          rw [List.mem_singleton.1 he]
          cases hch : h.chunked
          · exact .inr (.inl ⟨_, rfl, rfl⟩)
          · exact .inr (.inr ⟨_, rfl, rfl⟩)
        have hct : contentOf (p₂ ++ [if h.chunked then Ev.chunk x.unread else Ev.body x.unread]) = contentOf p₂ ++ x.unread := by
          rw [contentOf_append]
          cases h.chunked <;> simp [contentOf, Ev.content]
        refine ⟨hr', fun stk k hk => (by cases hk), fun f h1 h2 h3 => ?_, p ++ [if h.chunked then Ev.chunk x.unread else Ev.body x.unread], [], ?_, notEnded_append hne hev, .inl rfl, fun _ => ?_, fun _ => rfl, fun h => ?_,
          .inr (.inl ⟨p₁, h, p₂ ++ [if h.chunked then Ev.chunk x.unread else Ev.body x.unread], f.sent, by rw [f.split]; simp, f.only, f.head, relay_append f.relay hrel, fun hh => ?_, fun hh _ => ?_, fun _ hcl => ?_, fun hl hm => ⟨fun _ => ?_, fun d' h => (by cases h)⟩⟩)⟩
        · rw [show x.outcome = some f from h1] at hk1
          cases hk1 rfl
        · show s'.c.log = _
          rw [hes, hlog]; simp
        · show NoAnswer s'.stack
          rcases hstk with e | ⟨e, -⟩ <;> rw [e]
          · exact hst rfl
          · exact noAnswer_cons.2 ⟨rfl, hst rfl⟩
        · have h : (x.moved s').broken = true := h
          rw [hmb] at h
          exact hwh h
        · show contentOf _ <+: x.arrived
          rw [hct, f.all hh rfl]
          exact List.prefix_rfl
        · show contentOf _ ++ [] = x.arrived
          rw [hct, List.append_nil, f.all hh rfl]
        · obtain ⟨_, _, _, hcl⟩ := hcl; cases hcl
        · show Instr.completed ∉ s'.stack
          rcases hstk with e | ⟨e, h0⟩
          · rw [e]; exact (f.long hl hm).1 rfl
          · omega
  | finish =>
    simp only [Piped.resume] at hx
    by_cases hb : x.broken = true
    · rw [if_neg (by rw [hb]; simp)] at hx
      exact hbroken hb (Option.some.inj hx).symm
    · have hb : x.broken = false := by simpa using hb
      obtain ⟨p₁, h, p₂, rfl, f⟩ := hopen hb
      have hlog' : x.s.c.log = (a ++ p₁) ++ .head h :: p₂ := by rw [hlog, f.split]; simp
      have hne2 : NotEnded p₂ := fun e he => hne e (by rw [f.split]; simp [he])
      obtain ⟨-, hst2, -⟩ := writing_state hr he hf hlog' hne2
      rw [if_pos ⟨hb, hst2⟩] at hx
      obtain ⟨s', hrun, rfl⟩ := Option.map_eq_some_iff.1 hx
      have hr' := call_reach hr (by simp) hrun
      obtain ⟨v, hes⟩ := close_call he hf (by rw [hst2]; simp) hrun
      have hmb : (x.moved s').broken = true := by rw [moved_broken hes]; simp [Ev.ends]
      refine ⟨hr', fun stk k hk => (by cases hk), fun f h1 h2 h3 => hmb, p, [.closed true v], ?_, hne, .inr (.inr ⟨_, _, _, rfl⟩), fun h => (by cases h), fun h => ?_, fun _ => .inl (by simp),
        .inr (.inl ⟨p₁, h, p₂, f.sent, f.split, f.only, f.head, f.relay, f.pre, fun _ h => (by cases h), fun _ _ => ⟨hk2 rfl, fun hh => f.all hh rfl⟩, fun _ _ => ⟨fun h => (by cases h), fun d' h => (by cases h)⟩⟩)⟩
      · show s'.c.log = _
        rw [hes, hlog]; simp
      · have h : (x.moved s').broken = false := h
        rw [hmb] at h; cases h

/-- `sendHeaders()` and the rest of the slot. -/
theorem sendHeaders_ok {x x' : Piped} {k : PTask} (ha : WithHandler a r) (hr : Reach Proper x.s) (he : x.s.inEnv = true) (hf : x.s.c.fault = none) {p d : List Ev} (hp : x.headersSent = true → Prog u a r x p d)
    (hp0 : x.headersSent = false → d = [] ∧ x.s.c.log = a ++ p ∧ NoAnswer x.s.stack ∧ OnlyRecv p ∧ x.unread = x.arrived) (hb : x.broken = false)
    (hk1 : k = .pump → x.outcome = none) (hk2 : k = .finish → ∃ f, x.outcome = some f ∧ u.isError f = false) (hx : x.sendHeaders u k = some x') (hf' : x'.s.c.fault = none) : PipeOk u a r x' := by
  unfold Piped.sendHeaders at hx
  by_cases hs : x.headersSent = true
  · rw [if_pos (.inl hs)] at hx
    exact resume_ok hr he hf (hp hs) hs hk1 hk2 hx
  · rw [if_neg (by rw [hb]; simpa using hs)] at hx
    obtain ⟨rfl, hlog, hst, hon, hun⟩ := hp0 (by simpa using hs)
    obtain ⟨s', hrun, rfl⟩ := Option.map_eq_some_iff.1 hx
    have hr' := call_reach hr (by simp) hrun
    obtain ⟨h, hes, hhd, hstk⟩ := writeHeaders_call hr he hf (by rw [hlog]; exact withHandler_recv ha hon) hrun hf'
    have hev : NotEnded [Ev.head h] := by intro e he; rw [List.mem_singleton.1 he]; simp
    have hmb : (x.moved s').broken = false := by rw [moved_broken hes, not_ended_any hev, hb]; rfl
    refine ⟨hr', fun stk k' hk => ?_, fun f h1 h2 h3 => (by cases h3), p ++ [.head h], [], ?_, notEnded_append (onlyRecv_notEnded hon) hev, .inl rfl, fun _ => ?_, fun _ => rfl, fun h => ?_,
      .inr (.inl ⟨p, h, [], rfl, rfl, hon, hhd, (by intro e he; cases he), fun _ => ⟨_, rfl⟩, fun _ _ => hun, fun _ hcl => ?_, fun _ _ => ⟨fun _ => ?_, fun d' h => (by cases h)⟩⟩)⟩
    · cases hk
      exact ⟨rfl, hk1, hk2, he⟩
    · show s'.c.log = _
      rw [hes, hlog]; simp
    · show NoAnswer s'.stack
      rw [hstk]
      exact noAnswer_cons.2 ⟨rfl, hst⟩
    · have h : (x.moved s').broken = true := h
      rw [hmb] at h; cases h
    · obtain ⟨_, _, _, hcl⟩ := hcl; cases hcl
    · show Instr.completed ∉ s'.stack
      rw [hstk]
      have := env_not_completed hr he hf
      simpa using this

theorem step_ok {x x' : Piped} {l : PLabel} (ha : WithHandler a r) (h : PipeOk u a r x) (hl : ∀ m, l = .conn m → Proper x.s m ∧ (Open a x.s.c.log → ∀ c, m = .call c → ¬ Writes c))
    (hf : x.s.c.fault = none) (hx : x.step u l = some x') (hf' : x'.s.c.fault = none) : PipeOk u a r x' := by
  cases l with
  | conn m => exact conn_ok ha h (hl m rfl).1 (hl m rfl).2 hx
  | arrive bs =>
    simp only [Piped.step] at hx
    split at hx
    · rename_i ho
      cases hx
      obtain ⟨hr, ht, hdone, p, d, hlog, hne, hend, hst, hbr, hwh, hform⟩ := h
      refine ⟨hr, ht, hdone, p, d, hlog, hne, hend, hst, hbr, hwh, ?_⟩
      rcases hform with f | ⟨p₁, h, p₂, f⟩ | f
      · exact .inl ⟨f.only, f.sent, f.none, (by show x.unread ++ bs = _; rw [f.unread]), f.gone⟩
      · refine .inr (.inl ⟨p₁, h, p₂, f.sent, f.split, f.only, f.head, f.relay, fun hh => (f.pre (honest_pre hh)).trans (List.prefix_append _ _), fun hh hd => ?_, fun hl hcl => ?_, f.long⟩)
        · show _ ++ (x.unread ++ bs) = x.arrived ++ bs
          rw [← List.append_assoc, f.all (honest_pre hh) hd]
        · obtain ⟨⟨fo, k1, -⟩, -⟩ := f.closed hl hcl
          rw [ho] at k1; cases k1
      · exact .inr (.inr ⟨f.sent, f.shape, f.failed⟩)
    · cases hx
  | readyRead =>
    simp only [Piped.step] at hx
    split at hx
    · rename_i hg
      obtain ⟨g1, g2, g3, g4⟩ := hg
      obtain ⟨hr, ht, hdone, p, d, hp⟩ := h
      refine sendHeaders_ok (p := p) (d := d) ha hr g2 hf (fun _ => hp) (fun hs => ?_) g3 (fun _ => g4) (fun hk => by cases hk) hx hf'
      have hd := hp.broken g3
      subst hd
      rcases hp.form with f | ⟨p₁, h, p₂, f⟩ | f
      · exact ⟨rfl, by rw [hp.log, List.append_nil], hp.still rfl, f.only, f.unread⟩
      · rw [f.sent] at hs; cases hs
      · obtain ⟨fo, k, -⟩ := f.failed
        rw [g4] at k; cases k
    · cases hx
  | finished failed =>
    simp only [Piped.step] at hx
    split at hx
    · rename_i hg
      obtain ⟨g1, g2, g3, g4⟩ := hg
      obtain ⟨hr, ht, hdone, p, d, hp⟩ := h
      have hd := hp.broken g3
      subst hd
      have hlog0 : x.s.c.log = a ++ p := by rw [hp.log, List.append_nil]
      have h0 : x.headersSent = false → OnlyRecv p ∧ x.unread = x.arrived := by
        intro hs
        rcases hp.form with f | ⟨p₁, h, p₂, f⟩ | f
        · exact ⟨f.only, f.unread⟩
        · rw [f.sent] at hs; cases hs
        · obtain ⟨fo, k, -⟩ := f.failed
          rw [g4] at k; cases k
      have hp1 : x.headersSent = true → Prog u a r { x with outcome := some failed } p [] := by
        intro hs
        rcases hp.form with f | ⟨p₁, h, p₂, f⟩ | f
        · rw [f.sent] at hs; cases hs
        · exact ⟨hp.log, hp.notEnded, hp.ends, hp.still, hp.broken, hp.whole, .inr (.inl ⟨p₁, h, p₂, f.sent, f.split, f.only, f.head, f.relay, f.pre, f.all, fun _ hcl => (by obtain ⟨_, _, _, hcl⟩ := hcl; cases hcl), f.long⟩)⟩
        · rw [f.sent] at hs; cases hs
      unfold Piped.finished at hx
      dsimp only at hx
      by_cases herr : u.isError failed = false
      · rw [if_pos herr] at hx
        exact sendHeaders_ok (x := { x with outcome := some failed }) (p := p) (d := []) ha hr g2 hf hp1 (fun hs => ⟨rfl, hlog0, hp.still rfl, h0 hs⟩) g3 (fun hk => by cases hk) (fun _ => ⟨failed, rfl, herr⟩) hx hf'
      · rw [if_neg herr] at hx
        have herr : u.isError failed = true := by simpa using herr
        by_cases hs : x.headersSent = true
        · -- the headers were sent: nothing happens
          have hf1 : ∃ p₁ h p₂, Form1 u r x p [] p₁ h p₂ := by
            rcases hp.form with f | f | f
            · rw [f.sent] at hs; cases hs
            · exact f
            · rw [f.sent] at hs; cases hs
          obtain ⟨p₁, h, p₂, f⟩ := hf1
          have hlog' : x.s.c.log = (a ++ p₁) ++ .head h :: p₂ := by rw [hlog0, f.split]; simp
          have hne2 : NotEnded p₂ := fun e he => hp.notEnded e (by rw [f.split]; simp [he])
          obtain ⟨-, hst2, -⟩ := writing_state hr g2 hf hlog' hne2
          rw [if_neg (by rw [hst2]; simp)] at hx
          cases hx
          refine ⟨hr, fun stk k hk => ?_, fun f' h1 h2 h3 => ?_, p, [], hp1 hs⟩
          · rw [show x.task = some (stk, k) from hk] at g1; cases g1
          · cases h1
            rw [herr] at h2; cases h2
        · have hs : x.headersSent = false := by simpa using hs
          obtain ⟨hon, hun⟩ := h0 hs
          have hwh := withHandler_recv ha hon
          rw [← hlog0] at hwh
          obtain ⟨hst, hreq⟩ := busy_state hr g2 hf hwh
          rw [if_pos ⟨g3, hst⟩] at hx
          obtain ⟨s', hrun, rfl⟩ := Option.map_eq_some_iff.1 hx
          have hr' := call_reach hr (by simp) hrun
          obtain ⟨h, hes, hhd, hstk⟩ := unavailable_call hr g2 hf hwh hrun hf'
          have hev : NotEnded [Ev.head h] := by intro e he; rw [List.mem_singleton.1 he]; simp
          have hmb : (Piped.moved { x with outcome := some failed } s').broken = false := by
            rw [moved_broken (x := { x with outcome := some failed }) hes, not_ended_any hev]
            show (x.broken || false) = false
            rw [g3]; rfl
          refine ⟨hr', fun stk k' hk => ?_, fun f h1 h2 h3 => ?_, p ++ [.head h], [], ?_, notEnded_append hp.notEnded hev, .inl rfl, fun _ => ?_, fun _ => rfl, fun h => ?_,
            .inr (.inr ⟨hs, ⟨p, h, [], rfl, hon, hhd, (by intro e he; cases he)⟩, failed, rfl, herr⟩)⟩
          · rw [show x.task = some (stk, k') from hk] at g1; cases g1
          · cases h1
            rw [herr] at h2; cases h2
          · show s'.c.log = _
            rw [hes, hlog0]; simp
          · show NoAnswer s'.stack
            rw [hstk]
            exact noAnswer_cons.2 ⟨rfl, noAnswer_cons.2 ⟨rfl, hp.still rfl⟩⟩
          · rw [hmb] at h; cases h
    · cases hx
  | resume =>
    simp only [Piped.step] at hx
    split at hx
    · rename_i stk k ht
      split at hx
      · rename_i hstk
        obtain ⟨hr, htask, hdone, p, d, hp⟩ := h
        obtain ⟨k1, k2, k3, k4⟩ := htask stk k ht
        have he : x.s.inEnv = true := by
          have : x.s = ⟨x.s.c, stk⟩ := by rw [← hstk]
          rw [this]; exact k4
        exact resume_ok hr he hf hp k1 k2 k3 hx
      · cases hx
    · cases hx
  | destroyed =>
    simp only [Piped.step, Option.some.injEq] at hx
    subst hx
    obtain ⟨hr, ht, hdone, p, d, hlog, hne, hend, hst, hbr, hwh, hform⟩ := h
    have hl : (x.left || !x.broken) = false → x.left = false := fun h => (Bool.or_eq_false_iff.1 h).1
    refine ⟨hr, fun stk k hk => (by cases hk), fun f h1 h2 h3 => rfl, p, d, hlog, hne, hend, hst, fun h => (by cases h), fun _ => ?_, ?_⟩
    · cases hb : x.broken with
      | true => exact (hwh hb).imp id fun h => by show (x.left || _) = true; rw [h]; rfl
      | false => right; simp
    · rcases hform with f | ⟨p₁, h, p₂, f⟩ | f
      · exact .inl ⟨f.only, f.sent, .inr rfl, f.unread, fun hd => (by show (x.left || _) = true; rw [f.gone hd]; rfl)⟩
      · exact .inr (.inl ⟨p₁, h, p₂, f.sent, f.split, f.only, f.head, f.relay, f.pre, f.all, fun h hcl => f.closed (hl h) hcl, f.long⟩)
      · exact .inr (.inr ⟨f.sent, f.shape, f.failed⟩)

theorem step_fault {x x' : Piped} {l : PLabel} (hx : x.step u l = some x') (hf' : x'.s.c.fault = none) : x.s.c.fault = none := by
  have hres : ∀ {x x' : Piped} {k : PTask}, x.resume k = some x' → x'.s.c.fault = none → x.s.c.fault = none := by
    intro x x' k hx hf'
    cases k with
    | pump =>
      simp only [Piped.resume] at hx
      split at hx
      · cases hx; exact hf'
      · obtain ⟨s', hrun, rfl⟩ := Option.map_eq_some_iff.1 hx
        exact run_fault (by simp) hrun
    | finish =>
      simp only [Piped.resume] at hx
      split at hx
      · obtain ⟨s', hrun, rfl⟩ := Option.map_eq_some_iff.1 hx
        exact run_fault (by simp) hrun
      · cases hx; exact hf'
  have hsend : ∀ {x x' : Piped} {k : PTask}, x.sendHeaders u k = some x' → x'.s.c.fault = none → x.s.c.fault = none := by
    intro x x' k hx hf'
    unfold Piped.sendHeaders at hx
    split at hx
    · exact hres hx hf'
    · obtain ⟨s', hrun, rfl⟩ := Option.map_eq_some_iff.1 hx
      exact run_fault (by simp) hrun
  cases l with
  | conn m =>
    obtain ⟨s', hs, rfl⟩ := Option.map_eq_some_iff.1 (show (x.s.step m).map _ = some x' from hx)
    exact run_fault (ls := [m]) (by simp) (s' := s') (by simp [Conf.run, hs])
  | arrive bs =>
    simp only [Piped.step] at hx
    split at hx
    · cases hx; exact hf'
    · cases hx
  | readyRead =>
    simp only [Piped.step] at hx
    split at hx
    · exact hsend hx hf'
    · cases hx
  | finished failed =>
    simp only [Piped.step] at hx
    split at hx
    · unfold Piped.finished at hx
      dsimp only at hx
      split at hx
      · exact hsend (x := { x with outcome := some failed }) hx hf'
      · split at hx
        · obtain ⟨s', hrun, rfl⟩ := Option.map_eq_some_iff.1 hx
          exact run_fault (by simp) hrun
        · cases hx; exact hf'
    · cases hx
  | resume =>
    simp only [Piped.step] at hx
    split at hx
    · split at hx
      · exact hres hx hf'
      · cases hx
    · cases hx
  | destroyed =>
    simp only [Piped.step, Option.some.injEq] at hx
    subst hx
    exact hf'

theorem piping_handler {x : Piped} (h : Piping u a r x) : WithHandler a r := by
  induction h with
  | start s _ _ _ _ hw _ => exact hw
  | step _ _ _ _ _ _ ih => exact ih

theorem piping_ok {x : Piped} (h : Piping u a r x) (hf : x.s.c.fault = none) : PipeOk u a r x := by
  induction h with
  | start s hr he _ hlog hw hst =>
    refine ⟨hr, fun stk k hk => (by cases hk), fun f h1 => (by cases h1), [], [], by simpa using hlog, (by intro e he; cases he), .inl rfl, fun _ => hst, fun _ => rfl, fun h => (by cases h), .inl ⟨(by intro e he; cases he), rfl, .inl rfl, rfl, fun h => absurd rfl h⟩⟩
  | step x x' l hx hl hs ih =>
    have hf0 := step_fault hs hf
    exact step_ok (piping_handler hx) (ih hf0) hl hf0 hs hf

end Pillow.Props
