import Verif.Lemmas.ProxyOk
set_option linter.unusedSimpArgs false
set_option linter.unusedVariables false
/-!
# C44, C45: the proxy pipe
-/
namespace Pillow.Props
open Pillow Pillow.Spec

/-! ### C44 -/

theorem isError_iff (u : Upstream) (f : Bool) : u.isError f = true ↔ f = true ∨ 400 ≤ u.status := by simp [Upstream.isError]

/-- C44: whatever happens upstream and downstream, until the response is ended (`d` is empty, or begins with `requestCompleted` or `closed`) nothing is sent; or the status
and the headers of the upstream reply are sent once, followed by its content from the beginning, in order and without gaps (and if the response is still open,
what is missing is what the pipe has not read yet); or, if upstream failed, a 503 without content is sent. -/
theorem C44_relays (u : Upstream) (a : List Ev) (r : ReqView) (x : Piped) (hx : Piping u a r x) (hf : x.s.c.fault = none) :
    ∃ p d, x.s.c.log = a ++ p ++ d ∧ NotEnded p ∧ Ends d ∧
      (NothingSent p ∨
       (∃ content, Relayed u r p content ∧ (Upstream.Honest u x.arrived → content <+: x.arrived ∧ (d = [] → content ++ x.unread = x.arrived))) ∨
       (Unavailable r p ∧ ∃ f, x.outcome = some f ∧ (f = true ∨ 400 ≤ u.status))) := by
  obtain ⟨-, -, -, p, d, hp⟩ := piping_ok hx hf
  refine ⟨p, d, hp.log, hp.notEnded, hp.ends, ?_⟩
  rcases hp.form with f | ⟨p₁, h, p₂, f⟩ | f
  · exact .inl f.only
  · exact .inr (.inl ⟨contentOf p₂, ⟨p₁, h, p₂, f.split, f.only, f.head, f.relay, rfl⟩, fun hh => ⟨f.pre hh, f.all hh⟩⟩)
  · obtain ⟨g, g1, g2⟩ := f.failed
    exact .inr (.inr ⟨f.shape, g, g1, (isError_iff u g).1 g2⟩)

/-- C44: when upstream fails before anything was sent the client is answered 503 (and the request is completed right away); when
it fails later the pipe does nothing. Partial: a status from 400 on counts as a failure too (QNetworkReply), see `C44_violation`. -/
theorem C44_failure_partial (u : Upstream) (a : List Ev) (r : ReqView) (x x' : Piped) (hx : Piping u a r x) (failed : Bool) (he' : failed = true ∨ 400 ≤ u.status)
    (hs : x.step u (.finished failed) = some x') (hf' : x'.s.c.fault = none) :
    (∀ b, x.s.c.log = a ++ b → NothingSent b → ∃ h s'', x'.s.c.log = x.s.c.log ++ [.head h] ∧ HeadSpec r 0 503 [] h ∧
      x'.s.run [.tau 0, .tau 0] = some s'' ∧ s''.c.log = x.s.c.log ++ [.head h, .completed]) ∧
    (∀ b, x.s.c.log = a ++ b → ¬ NothingSent b → x'.s = x.s) := by
  have he := (isError_iff u failed).2 he'
  have hf := step_fault hs hf'
  obtain ⟨hr, ht, hdone, p, d, hp⟩ := piping_ok hx hf
  have ha := piping_handler hx
  simp only [Piped.step] at hs
  split at hs
  rotate_left
  · cases hs
  rename_i hg
  obtain ⟨g1, g2, g3, g4⟩ := hg
  have hd := hp.broken g3
  subst hd
  have hlog0 : x.s.c.log = a ++ p := by rw [hp.log, List.append_nil]
  unfold Piped.finished at hs
  dsimp only at hs
  rw [if_neg (by rw [he]; simp)] at hs
  constructor
  · intro b hb hn
    have hbp : b = p := List.append_cancel_left (hb.symm.trans hlog0)
    subst hbp
    have hwh := withHandler_recv ha hn
    rw [← hlog0] at hwh
    obtain ⟨hst, hreq⟩ := busy_state hr g2 hf hwh
    rw [if_pos ⟨g3, hst⟩] at hs
    obtain ⟨s', hrun, rfl⟩ := Option.map_eq_some_iff.1 hs
    have hf' : s'.c.fault = none := hf'
    obtain ⟨h, hes, hhd, hstk⟩ := unavailable_call hr g2 hf hwh hrun hf'
    have hr' := call_reach hr (by simp) hrun
    have hlen : h.len = 0 := by rw [hhd.len]; decide +kernel
    have hstep : ∃ c1, exec 0 .sendContent s'.c = (c1, [.completed, .sendContentRest]) ∧ c1.log = s'.c.log ∧ c1.fault = none ∧ c1.st ≠ .completed := by
      have key : s'.c.respLen = 0 ∧ s'.c.st ≠ .sendingContent := by
        rcases linv_reach hr' with hc | hc | hc
        · obtain ⟨ph, k1, k2⟩ := hc.data
          rw [hstk] at k2
          obtain ⟨q1, q2, q3, h', k3, k4⟩ := k2
          obtain ⟨-, ph', hruns⟩ := reach_log hr'
          have := runs_det k1 hruns
          subst this
          obtain ⟨r', -, -, -, h4⟩ := head_split hruns (a := x.s.c.log) (b := []) (h := h) hes
          cases h4
          have hb0 : Phase.begin r' h = .ended r' h := by unfold Phase.begin; rw [if_pos (.inl hlen)]
          rw [hb0] at k4
          split at k4
          · injection k4 with k5 k6
            subst k6
            exact ⟨by rw [k3.len]; exact hlen, by rw [q1]; simp⟩
          · cases k4
        · exfalso
          rw [hstk] at hc
          generalize hS : Instr.sendContent :: Instr.writeResponseRest [] :: x.s.stack = st at hc
          cases hc with
          | z0 => cases hS
          | z1 _ n x _ _ _ hbn => rw [← hS] at hbn; have := hbn .sendContent (by simp); cases this
          | zf => cases hS
          | z2 _ _ _ _ _ hbn => rw [← hS] at hbn; have := hbn .sendContent (by simp); cases this
          | zp => cases hS
        · rw [Dead, hf'] at hc; cases hc.1
      refine ⟨{ s'.c with st := .sendingContent, respBuf := [] }, ?_, rfl, hf', by simp⟩
      simp only [exec, Conn.sendContent]
      rw [if_neg key.2, if_pos key.1]
    obtain ⟨c1, e1, l1, f1, t1⟩ := hstep
    have e2 : ∃ c2 k, exec 0 .completed c1 = (c2, k) ∧ c2.log = c1.log ++ [.completed] := by
      simp only [exec, Conn.complete]
      rw [if_neg t1]
      exact ⟨_, _, rfl, rfl⟩
    obtain ⟨c2, k, e2, l2⟩ := e2
    refine ⟨h, ⟨c2, k ++ .sendContentRest :: .writeResponseRest [] :: x.s.stack⟩, hes, hhd, ?_, by rw [l2, l1, hes]; simp⟩
    show s'.run _ = _
    have : s' = ⟨s'.c, .sendContent :: .writeResponseRest [] :: x.s.stack⟩ := by rw [← hstk]
    rw [this, run_tau (by simp) hf', e1]
    dsimp only [List.cons_append, List.nil_append]
    rw [run_tau (by simp) f1, e2]
    rfl
  · intro b hb hn
    have hbp : b = p := List.append_cancel_left (hb.symm.trans hlog0)
    subst hbp
    rcases hp.form with f | ⟨p₁, h, p₂, f⟩ | f
    · exact absurd f.only hn
    · have hlog' : x.s.c.log = (a ++ p₁) ++ .head h :: p₂ := by rw [hlog0, f.split]; simp
      have hne2 : NotEnded p₂ := fun e he => hp.notEnded e (by rw [f.split]; simp [he])
      obtain ⟨-, hst2, -⟩ := writing_state hr g2 hf hlog' hne2
      rw [if_neg (by rw [hst2]; simp)] at hs
      cases hs
      rfl
    · obtain ⟨fo, k, -⟩ := f.failed
      rw [g4] at k; cases k

/-- C44: after `requestCompleted` or `closed` the pipe does not touch the connection any more. -/
theorem C44_silent (u : Upstream) (a : List Ev) (r : ReqView) (x x' : Piped) (hx : Piping u a r x) (hf : x.s.c.fault = none) (hend : ¬ Open a x.s.c.log)
    (l : PLabel) (hl : ∀ m, l ≠ .conn m) (hs : x.step u l = some x') : x'.s = x.s := by
  obtain ⟨-, -, -, p, d, hp⟩ := piping_ok hx hf
  have hb : x.broken = true := by
    cases hb : x.broken with
    | true => rfl
    | false =>
      exfalso
      apply hend
      have hd := hp.broken hb
      subst hd
      exact ⟨p, by rw [hp.log, List.append_nil], hp.notEnded⟩
  cases l with
  | conn m => exact absurd rfl (hl m)
  | arrive bs =>
    simp only [Piped.step] at hs
    split at hs <;> cases hs
    rfl
  | readyRead =>
    simp only [Piped.step] at hs
    rw [if_neg (by rw [hb]; simp)] at hs
    cases hs
  | finished failed =>
    simp only [Piped.step] at hs
    rw [if_neg (by rw [hb]; simp)] at hs
    cases hs
  | resume =>
    simp only [Piped.step] at hs
    split at hs
    · rename_i stk k _
      split at hs
      · cases k with
        | pump =>
          simp only [Piped.resume] at hs
          rw [if_pos hb] at hs
          cases hs; rfl
        | finish =>
          simp only [Piped.resume] at hs
          rw [if_neg (by rw [hb]; simp)] at hs
          cases hs; rfl
      · cases hs
    · cases hs
  | destroyed =>
    simp only [Piped.step, Option.some.injEq] at hs
    subst hs; rfl

/-- C44: content does not stay behind: once `readyRead()` has been handled (which takes a second step if the headers had to be sent), everything
that had arrived has been passed on, unless the response was ended or one of the objects destroyed. -/
theorem C44_forwards (u : Upstream) (a : List Ev) (r : ReqView) (x x' : Piped) (hx : Piping u a r x) (hf' : x'.s.c.fault = none) (ho : x.outcome = none)
    (l : PLabel) (hl : l = .readyRead ∨ l = .resume) (hs : x.step u l = some x') (ht : x'.task = none) :
    x'.arrived = x.arrived ∧ (x'.broken = true ∨ x'.unread = []) := by
  have hf := step_fault hs hf'
  obtain ⟨-, hta, -⟩ := piping_ok hx hf
  have hres : ∀ {x x' : Piped}, x.resume .pump = some x' → x'.arrived = x.arrived ∧ (x'.broken = true ∨ x'.unread = []) := by
    intro x x' h
    simp only [Piped.resume] at h
    split at h
    · rename_i hb
      cases h
      exact ⟨rfl, .inl hb⟩
    · obtain ⟨s', -, rfl⟩ := Option.map_eq_some_iff.1 h
      exact ⟨rfl, .inr rfl⟩
  rcases hl with rfl | rfl
  · simp only [Piped.step] at hs
    split at hs
    · unfold Piped.sendHeaders at hs
      split at hs
      · exact hres hs
      · obtain ⟨s', -, rfl⟩ := Option.map_eq_some_iff.1 hs
        cases ht
    · cases hs
  · simp only [Piped.step] at hs
    split at hs
    · rename_i stk k hk
      split at hs
      · cases k with
        | pump => exact hres hs
        | finish =>
          obtain ⟨-, -, k3, -⟩ := hta _ _ hk
          obtain ⟨f, k4, -⟩ := k3 rfl
          rw [ho] at k4; cases k4
      · cases hs
    · cases hs

/-! ### C45 -/

theorem relay_wire {h : RespHead} {b : List Ev} (hr : Relay h b) (hc : h.chunked = false) : wireOf b = contentOf b := by
  induction b with
  | nil => rfl
  | cons e b ih =>
    rw [wireOf_cons, contentOf_cons, ih (fun e he => hr e (by simp [he]))]
    rcases hr e (by simp) with ⟨bs, rfl⟩ | ⟨bs, rfl, -⟩ | ⟨bs, rfl, k⟩
    · rfl
    · rfl
    · rw [hc] at k; cases k

theorem chunked_append {w c r : Bytes} (h : Chunked w c r) (x : Bytes) : Chunked (w ++ x) c (r ++ x) := by
  induction h with
  | last size rest h0 => have := Chunked.last size (rest ++ x) h0; simpa using this
  | chunk size data wire content rest h1 h2 _ ih =>
    have := Chunked.chunk size data (wire ++ x) content (rest ++ x) h1 h2 ih
    simpa using this

/-- Where the response stands when upstream has ended well. -/
theorem ended_well {u : Upstream} {a : List Ev} {r : ReqView} {x : Piped} (hx : Piping u a r x) (hf : x.s.c.fault = none) (ho : x.outcome = some false) (hst : u.status < 400)
    (ht : x.task = none) (hl : x.left = false) (hh : Upstream.Honest u x.arrived) (hun : x.unread = []) :
    ∃ p₁ h p₂ d, x.s.c.log = a ++ p₁ ++ .head h :: p₂ ++ d ∧ OnlyRecv p₁ ∧ HeadSpec r (-1) u.status u.headers h ∧ Relay h p₂ ∧ NotEnded p₂ ∧
      ((∃ d', d = .completed :: d') ∧ (r.method = b!"HEAD" ∨ h.len = x.arrived.length ∧ h.chunked = false ∧ contentOf p₂ = x.arrived) ∨
       (∃ v d', d = .closed true v :: d') ∧ r.method ≠ b!"HEAD" ∧ contentOf p₂ = x.arrived ∧ (h.len < 0 ∨ (x.arrived.length : Int) < h.len) ∧
         (h.chunked = true → ∀ w c rest, Chunked w c rest → Chunked (wireOf p₂ ++ w) (contentOf p₂ ++ c) rest)) := by
  obtain ⟨hr, -, hdone, p, d, hp⟩ := piping_ok hx hf
  have herr : u.isError false = false := by unfold Upstream.isError; simp; omega
  have hb := hdone _ ho herr ht
  have hd : d ≠ [] := by
    rcases hp.whole hb with h | h
    · exact h
    · rw [hl] at h; cases h
  have ha := piping_handler hx
  rcases hp.form with f | ⟨p₁, h, p₂, f⟩ | f
  · have := f.gone hd
    rw [hl] at this; cases this
  · have hlog : x.s.c.log = a ++ p₁ ++ .head h :: p₂ ++ d := by rw [hp.log, f.split]; simp
    have hne2 : NotEnded p₂ := fun e he => hp.notEnded e (by rw [f.split]; simp [he])
    have hlast : (readys (a ++ p₁)).getLast? = some r := withHandler_readys (withHandler_recv ha f.only)
    refine ⟨p₁, h, p₂, d, hlog, f.only, f.head, f.relay, hne2, ?_⟩
    have hnh : NoHead p₂ := by
      intro e he h' heq
      subst heq
      rcases f.relay _ he with ⟨_, k⟩ | ⟨_, k, _⟩ | ⟨_, k, _⟩ <;> cases k
    rcases hp.ends with rfl | ⟨d', rfl⟩ | ⟨fo, v, d', rfl⟩
    · exact absurd rfl hd
    · left
      refine ⟨⟨d', rfl⟩, ?_⟩
      by_cases hm : r.method = b!"HEAD"
      · exact .inl hm
      · right
        have hlen : 0 ≤ h.len := by
          by_cases h0 : h.len < 0
          · exact absurd rfl ((f.long h0 hm).2 d')
          · omega
        have hch : h.chunked = false := by
          cases hc : h.chunked with
          | false => rfl
          | true => have := (f.head.chunked.1 hc).2.1; omega
        have hex := C18_complete_exact x.s hr (a ++ p₁) p₂ d' h r hlog hnh hlast hm hlen
        have hpre := f.pre hh
        have hle := hh (by rw [← f.head.len]; exact hlen)
        rw [← f.head.len] at hle
        have heq : contentOf p₂ = x.arrived := hpre.eq_of_length_le (by omega)
        exact ⟨by rw [← hex, heq], hch, heq⟩
    · right
      obtain ⟨-, ph, hruns⟩ := reach_log hr
      have hlog2 := hlog
      rw [List.append_assoc, List.cons_append] at hlog2
      obtain ⟨r', h1, -, -, h4⟩ := head_split hruns hlog2
      rw [hlast, Option.some.injEq] at h1
      subst h1
      obtain ⟨q, q1, q2⟩ := h4.append
      obtain ⟨-, hq⟩ := writing_path r h p₂ q1 hne2
      have hcont : contentOf p₂ = x.arrived := by
        have := (f.closed hl ⟨_, _, _, rfl⟩).2 hh
        rwa [hun, List.append_nil] at this
      cases q2 with
      | cons _ q' _ _ _ n1 _ =>
      rcases hq with ⟨rfl, s1, s2, s3, s4, -⟩ | ⟨rfl, -⟩
      · cases n1 with
        | forced _ v _ _ =>
          refine ⟨⟨v, d', rfl⟩, s2, hcont, ?_, s4⟩
          rw [← hcont]
          by_cases h0 : 0 < h.len
          · exact .inr (s3 h0)
          · left; omega
      · cases n1 with
        | forced _ v _ k => exact absurd rfl (k _ _)
  · obtain ⟨fo, k1, k2⟩ := f.failed
    rw [ho, Option.some.injEq] at k1
    subst k1
    rw [herr] at k2; cases k2

/-- C45, for replies that are not relayed in chunks: when upstream has ended well, the response is ended: completed, having declared the length of the
content and sent exactly it (or being the answer to a HEAD request); or the connection is closed after exactly the content — and then no length was declared, or a greater one than upstream delivered.
Assumed: everything upstream announced with `readyRead()` was read, and nobody else closed the connection or destroyed the objects.
Missing: replies relayed in chunks, see `C45_chunks_cut_off`. -/
theorem C45_delimited_partial (u : Upstream) (a : List Ev) (r : ReqView) (x : Piped) (hx : Piping u a r x) (hf : x.s.c.fault = none) (ho : x.outcome = some false) (hst : u.status < 400)
    (ht : x.task = none) (hl : x.left = false) (hh : Upstream.Honest u x.arrived) (hun : x.unread = []) (hnc : ¬ HandlerChunks u.headers) :
    ∃ p₁ h p₂ d, x.s.c.log = a ++ p₁ ++ .head h :: p₂ ++ d ∧ OnlyRecv p₁ ∧ NotEnded p₂ ∧ HeadSpec r (-1) u.status u.headers h ∧
      ((∃ d', d = .completed :: d') ∧ (r.method = b!"HEAD" ∨ h.len = x.arrived.length ∧ wireOf p₂ = x.arrived) ∨
       (∃ v d', d = .closed true v :: d') ∧ wireOf p₂ = x.arrived ∧ (h.len < 0 ∨ (x.arrived.length : Int) < h.len)) := by
  obtain ⟨p₁, h, p₂, d, h1, h2, h3, h4, h5, h6⟩ := ended_well hx hf ho hst ht hl hh hun
  have hch : h.chunked = false := by
    cases hc : h.chunked with
    | false => rfl
    | true => exact absurd (h3.chunked.1 hc).2.2 hnc
  refine ⟨p₁, h, p₂, d, h1, h2, h5, h3, ?_⟩
  rw [relay_wire h4 hch]
  rcases h6 with ⟨k1, k2⟩ | ⟨k1, -, k3, k4, -⟩
  · exact .inl ⟨k1, k2.imp id fun k => ⟨k.1, k.2.2⟩⟩
  · exact .inr ⟨k1, k3, k4⟩

/-- Where the response stands when upstream has delivered all of a declared length. -/
theorem reached_well {u : Upstream} {a : List Ev} {r : ReqView} {x : Piped} (hx : Piping u a r x) (hf : x.s.c.fault = none) (hin : x.s.inEnv = true) (hl : x.left = false) (hun : x.unread = [])
    (hne : x.arrived ≠ []) (hd : (x.arrived.length : Int) = declaredLength (-1) u.headers) (hok : ∀ f, x.outcome = some f → f = false ∧ u.status < 400) :
    ∃ p₁ h p₂ d, x.s.c.log = a ++ p₁ ++ .head h :: p₂ ++ .completed :: d ∧ OnlyRecv p₁ ∧ HeadSpec r (-1) u.status u.headers h ∧ Relay h p₂ ∧ NotEnded p₂ ∧
      (r.method = b!"HEAD" ∨ h.len = x.arrived.length ∧ h.chunked = false ∧ contentOf p₂ = x.arrived) := by
  obtain ⟨hr, -, -, p, d, hp⟩ := piping_ok hx hf
  have hh : Upstream.Honest u x.arrived := fun _ => by omega
  have ha := piping_handler hx
  have hpos : 0 < x.arrived.length := List.length_pos_iff.2 hne
  rcases hp.form with f | ⟨p₁, h, p₂, f⟩ | f
  · have := f.unread
    rw [hun] at this
    exact absurd this.symm hne
  · have hlog : x.s.c.log = a ++ p₁ ++ .head h :: p₂ ++ d := by rw [hp.log, f.split]; simp
    have hne2 : NotEnded p₂ := fun e he => hp.notEnded e (by rw [f.split]; simp [he])
    have hlast : (readys (a ++ p₁)).getLast? = some r := withHandler_readys (withHandler_recv ha f.only)
    have hlen : h.len = x.arrived.length := by rw [f.head.len, hd]
    have hnh : NoHead p₂ := by
      intro e he h' heq
      subst heq
      rcases f.relay _ he with ⟨_, k⟩ | ⟨_, k, _⟩ | ⟨_, k, _⟩ <;> cases k
    rcases hp.ends with rfl | ⟨d', rfl⟩ | ⟨fo, v, d', rfl⟩
    · exfalso
      have hall := f.all hh rfl
      rw [hun, List.append_nil] at hall
      obtain ⟨-, -, -, -, -, k, -⟩ := writing_state hr hin hf (a := a ++ p₁) (b := p₂) (hd := h) (by rw [hlog]; simp) hne2
      have := k (by omega)
      rw [hall] at this
      omega
    · refine ⟨p₁, h, p₂, d', hlog, f.only, f.head, f.relay, hne2, ?_⟩
      by_cases hm : r.method = b!"HEAD"
      · exact .inl hm
      · right
        have hch : h.chunked = false := by
          cases hc : h.chunked with
          | false => rfl
          | true => have := (f.head.chunked.1 hc).2.1; omega
        have hex := C18_complete_exact x.s hr (a ++ p₁) p₂ d' h r hlog hnh hlast hm (by omega)
        exact ⟨hlen, hch, (f.pre hh).eq_of_length_le (by omega)⟩
    · exfalso
      obtain ⟨-, ph, hruns⟩ := reach_log hr
      have hlog2 := hlog
      rw [List.append_assoc, List.cons_append] at hlog2
      obtain ⟨r', h1, -, -, h4⟩ := head_split hruns hlog2
      rw [hlast, Option.some.injEq] at h1
      subst h1
      obtain ⟨q, q1, q2⟩ := h4.append
      obtain ⟨-, hq⟩ := writing_path r h p₂ q1 hne2
      have hcont : contentOf p₂ = x.arrived := by
        have := (f.closed hl ⟨_, _, _, rfl⟩).2 hh
        rwa [hun, List.append_nil] at this
      cases q2 with
      | cons _ q' _ _ _ n1 _ =>
      rcases hq with ⟨rfl, s1, s2, s3, s4, -⟩ | ⟨rfl, -⟩
      · have := s3 (by omega)
        rw [hcont] at this
        omega
      · cases n1 with
        | forced _ v _ k => exact absurd rfl (k _ _)
  · obtain ⟨fo, k1, k2⟩ := f.failed
    obtain ⟨k3, k4⟩ := hok fo k1
    rw [isError_iff] at k2
    rcases k2 with k2 | k2
    · rw [k3] at k2; cases k2
    · omega

/-- C45, replies of declared length with content: as soon as all of it has arrived and was read (upstream need not have finished), and control is back at the application, the response is completed,
having declared that length and sent exactly that content (or being the answer to a HEAD request). -/
theorem C45_reached (u : Upstream) (a : List Ev) (r : ReqView) (x : Piped) (hx : Piping u a r x) (hf : x.s.c.fault = none) (hin : x.s.inEnv = true) (hl : x.left = false) (hun : x.unread = [])
    (hne : x.arrived ≠ []) (hd : (x.arrived.length : Int) = declaredLength (-1) u.headers) (hok : ∀ f, x.outcome = some f → f = false ∧ u.status < 400) :
    ∃ p₁ h p₂ d, x.s.c.log = a ++ p₁ ++ .head h :: p₂ ++ .completed :: d ∧ OnlyRecv p₁ ∧ NotEnded p₂ ∧ HeadSpec r (-1) u.status u.headers h ∧
      (r.method = b!"HEAD" ∨ h.len = x.arrived.length ∧ wireOf p₂ = x.arrived) := by
  obtain ⟨p₁, h, p₂, d, h1, h2, h3, h4, h5, h6⟩ := reached_well hx hf hin hl hun hne hd hok
  refine ⟨p₁, h, p₂, d, h1, h2, h5, h3, h6.imp id fun k => ⟨k.1, ?_⟩⟩
  rw [relay_wire h4 k.2.1, k.2.2]

/-- C45 fails for every reply relayed in chunks: when upstream has ended well, the connection is closed and what was sent is not a complete chunked body. -/
theorem C45_chunks_cut_off (u : Upstream) (a : List Ev) (r : ReqView) (x : Piped) (hx : Piping u a r x) (hf : x.s.c.fault = none) (ho : x.outcome = some false) (hst : u.status < 400)
    (ht : x.task = none) (hl : x.left = false) (hh : Upstream.Honest u x.arrived) (hun : x.unread = []) (hc : HandlerChunks u.headers) (hd : declaredLength (-1) u.headers = -1)
    (hv : r.version = b!"HTTP/1.1") (hm : r.method ≠ b!"HEAD") :
    ∃ p₁ h p₂ v d, x.s.c.log = a ++ p₁ ++ .head h :: p₂ ++ .closed true v :: d ∧ h.chunked = true ∧ contentOf p₂ = x.arrived ∧ ¬ ∃ content rest, Chunked (wireOf p₂) content rest := by
  obtain ⟨p₁, h, p₂, d, h1, h2, h3, h4, h5, h6⟩ := ended_well hx hf ho hst ht hl hh hun
  have hlen : h.len = -1 := by rw [h3.len, hd]
  have hch : h.chunked = true := h3.chunked.2 ⟨hv, hlen, hc⟩
  rcases h6 with ⟨-, k | ⟨k, -⟩⟩ | ⟨⟨v, d', rfl⟩, -, k3, -, k5⟩
  · exact absurd k hm
  · omega
  · refine ⟨p₁, h, p₂, v, d', h1, hch, k3, ?_⟩
    rintro ⟨content, rest, hw⟩
    have e1 := k5 hch _ _ _ (lastChunk_wire [])
    have e2 := chunked_append hw (Ev.lastChunk.wire ++ [])
    have := (chunked_unique e1 e2).2
    have := congrArg List.length this
    simp [Ev.wire] at this

/-! ### cases that meet the hypotheses -/

/-- Steps in which the connection only executes what is pending. -/
def Plain : PLabel → Bool
  | .conn (.tau _) => true
  | .conn .ret => true
  | .conn _ => false
  | _ => true

theorem piping_plain {u : Upstream} {a : List Ev} {r : ReqView} : ∀ {ls : List PLabel} {x x' : Piped}, Piping u a r x → (∀ l ∈ ls, Plain l = true) → x.run u ls = some x' → Piping u a r x'
  | [], x, x', h, _, hr => by cases hr; exact h
  | l :: ls, x, x', h, hl, hr => by
    cases hs : x.step u l with
    | none => rw [Piped.run, hs] at hr; cases hr
    | some t =>
      rw [Piped.run, hs] at hr
      refine piping_plain (.step x t l h ?_ hs) (fun l' h' => hl l' (by simp [h'])) hr
      rintro m rfl
      have := hl (.conn m) (by simp)
      cases m <;> simp [Plain] at this
      · exact ⟨fun e => (by cases e), fun _ c e => by cases e⟩
      · exact ⟨fun e => (by cases e), fun _ c e => by cases e⟩

/-- A GET (or HEAD) request that is with the handler. -/
def pipeStart (line : Bytes) : List Label := [.init, .recv (line ++ b!" HTTP/1.1\r\n\r\n"), .call .processInput] ++ taus 3

def pipeRun (line : Bytes) (u : Upstream) (ls : List PLabel) : Option (Conf × Piped) :=
  (Conf.runIf Proper {} (pipeStart line)).bind fun s => (Piped.run u { s := s } ls).map fun x => (s, x)

theorem pipe_demo {line : Bytes} {u : Upstream} {ls : List PLabel} {p : Conf → Piped → Bool} (hl : ls.all Plain = true)
    (h : (match pipeRun line u ls with
      | some (s, x) => (s.inEnv && s.c.fault == none && s.stack == [.env] && match s.c.log.getLast? with | some (.ready r) => r == s.c.req | _ => false) && p s x
      | none => false) = true) :
    ∃ s x, Piping u s.c.log s.c.req x ∧ p s x = true := by
  split at h
  · rename_i s x he
    unfold pipeRun at he
    obtain ⟨s', h1, h2⟩ := Option.bind_eq_some_iff.1 he
    obtain ⟨x', h3, h4⟩ := Option.map_eq_some_iff.1 h2
    cases h4
    simp only [Bool.and_eq_true, beq_iff_eq] at h
    obtain ⟨⟨⟨⟨k1, k2⟩, k3⟩, k4⟩, k5⟩ := h
    refine ⟨s, x, piping_plain (.start s (reach_runIf _ _ _ _ .start h1) k1 k2 rfl ?_ ?_) (by simpa using hl) h3, k5⟩
    · split at k4
      · rename_i r hlast
        have hr : r = s.c.req := by simpa using k4
        subst hr
        obtain ⟨b, hb⟩ := List.getLast?_eq_some_iff.1 hlast
        exact ⟨b, [], by rw [hb], by intro e he; cases he⟩
      · cases k4
    · rw [k3]
      intro i hi
      simp at hi
      subst hi
      simp
  · cases h

def sized (n : Bytes) : Upstream := { status := 200, headers := [⟨b!"Content-Length", n⟩, ⟨b!"X-Y", b!"z"⟩] }
def unsized : Upstream := { status := 200, headers := [⟨b!"X-Y", b!"z"⟩] }
def inChunks : Upstream := { status := 200, headers := [⟨b!"Transfer-Encoding", b!"chunked"⟩] }
def notFound : Upstream := { status := 404, headers := [⟨b!"Content-Length", b!"0"⟩] }

def ptaus (n : Nat) : List PLabel := (taus n).map .conn

/-- Two pieces of content, then upstream is done. -/
def relayLabels : List PLabel :=
  [.arrive b!"he", .readyRead] ++ ptaus 2 ++ [.resume, .arrive b!"llo", .readyRead]

def logShape : List Ev → List String := fun l => l.map fun
  | .init => "init" | .recv _ => "recv" | .ready _ => "ready" | .head _ => "head" | .body _ => "body" | .chunk _ => "chunk" | .completed => "completed" | .closed _ _ => "closed" | _ => "?"

/-- The hypotheses of `C45_reached`; the response completes, and the pipe breaks, when the last byte is written. -/
example : ∃ (s : Conf) (x : Piped), Piping (sized b!"5") s.c.log s.c.req x ∧
    (x.s.c.fault == none && x.s.inEnv && x.outcome == none && declaredLength (-1) (sized b!"5").headers == 5 && x.unread == [] && !x.left && x.arrived == b!"hello" && x.broken &&
      logShape x.s.c.log == ["init", "recv", "ready", "head", "body", "body", "completed"] && contentOf x.s.c.log == b!"hello") = true :=
  pipe_demo (line := b!"GET /a") (ls := relayLabels ++ ptaus 1) (by decide) (by decide +kernel)

/-- The hypotheses of `C45_delimited_partial`, without a declared length: the connection is closed by the pipe. -/
example : ∃ (s : Conf) (x : Piped), Piping unsized s.c.log s.c.req x ∧
    (x.s.c.fault == none && x.outcome == some false && x.task == none && !x.left && x.unread == [] && x.arrived == b!"hello" &&
      logShape x.s.c.log == ["init", "recv", "ready", "head", "body", "body", "closed"] && contentOf x.s.c.log == b!"hello") = true :=
  pipe_demo (line := b!"GET /a") (ls := relayLabels ++ [.finished false]) (by decide) (by decide +kernel)

example : unsized.status < 400 ∧ ¬ HandlerChunks unsized.headers ∧ declaredLength (-1) unsized.headers = -1 ∧ Upstream.Honest unsized b!"hello" := by
  have h : lastHeader unsized.headers b!"transfer-encoding" = none := by decide +kernel
  have h2 : declaredLength (-1) unsized.headers = -1 := by decide +kernel
  refine ⟨by decide, ?_, h2, fun hd => ?_⟩
  · rintro ⟨k, hk, -⟩; rw [h] at hk; cases hk
  · rw [h2] at hd; omega

/-- … and a declared length (upstream finishes without content: nothing is read before `finished()`). -/
example : ∃ (s : Conf) (x : Piped), Piping (sized b!"0") s.c.log s.c.req x ∧
    (x.s.c.fault == none && x.outcome == some false && x.task == none && !x.left && x.unread == [] && x.arrived == [] &&
      logShape x.s.c.log == ["init", "recv", "ready", "head", "completed"]) = true :=
  pipe_demo (line := b!"GET /a") (ls := [.finished false] ++ ptaus 2 ++ [.conn .ret] ++ ptaus 2 ++ [.conn .ret] ++ ptaus 3 ++ [.resume]) (by decide) (by decide +kernel)

/-- The hypotheses of `C45_chunks_cut_off`. -/
theorem C45_violation : ∃ (s : Conf) (x : Piped), Piping inChunks s.c.log s.c.req x ∧
    (x.s.c.fault == none && x.outcome == some false && x.task == none && !x.left && x.unread == [] && x.arrived == b!"hello" && s.c.req.version == b!"HTTP/1.1" && s.c.req.method == b!"GET" &&
      logShape x.s.c.log == ["init", "recv", "ready", "head", "chunk", "chunk", "closed"] && wireOf (x.s.c.log.drop 4) == b!"2\r\nhe\r\n3\r\nllo\r\n") = true :=
  pipe_demo (line := b!"GET /a") (ls := relayLabels ++ [.finished false]) (by decide) (by decide +kernel)

example : inChunks.status < 400 ∧ HandlerChunks inChunks.headers ∧ declaredLength (-1) inChunks.headers = -1 :=
  ⟨by decide, ⟨⟨b!"Transfer-Encoding", b!"chunked"⟩, by decide +kernel, by decide⟩, by decide +kernel⟩

/-- C44 is false of the code as to "503 iff the transfer failed": a reply 404 without content, transferred without failure, is relayed as 503. -/
theorem C44_violation : ∃ (s : Conf) (x : Piped), Piping notFound s.c.log s.c.req x ∧
    (x.s.c.fault == none && x.outcome == some false && match x.s.c.log with
      | [_, _, _, .head h, .completed] => h.status == 503
      | _ => false) = true :=
  pipe_demo (line := b!"GET /a") (ls := [.finished false] ++ ptaus 2) (by decide) (by decide +kernel)

/-- C45 is false of the code when upstream fails after the headers were sent: the response is neither completed nor is the connection closed, and
no further step of the pipe will do it. -/
theorem C45_hang : ∃ (s : Conf) (x : Piped), Piping unsized s.c.log s.c.req x ∧
    (x.s.c.fault == none && x.outcome == some true && x.task == none && !x.broken && x.s.inEnv && logShape x.s.c.log == ["init", "recv", "ready", "head", "body", "body"]) = true :=
  pipe_demo (line := b!"GET /a") (ls := relayLabels ++ [.finished true]) (by decide) (by decide +kernel)

/-- Once the reply has finished with an error after the headers were sent, the pipe never ends the response. -/
theorem C45_failed_never_ended (u : Upstream) (x x' : Piped) (ht : x.task = none) (ho : x.outcome ≠ none) (l : PLabel) (hl : ∀ m, l ≠ .conn m) (hs : x.step u l = some x') :
    x'.s = x.s ∧ x'.task = none ∧ x'.outcome ≠ none := by
  cases l with
  | conn m => exact absurd rfl (hl m)
  | arrive bs =>
    simp only [Piped.step] at hs
    rw [if_neg ho] at hs; cases hs
  | readyRead =>
    simp only [Piped.step] at hs
    rw [if_neg (fun h => ho h.2.2.2)] at hs; cases hs
  | finished failed =>
    simp only [Piped.step] at hs
    rw [if_neg (fun h => ho h.2.2.2)] at hs; cases hs
  | resume => simp only [Piped.step, ht] at hs; cases hs
  | destroyed =>
    simp only [Piped.step, Option.some.injEq] at hs
    subst hs
    exact ⟨rfl, rfl, ho⟩

end Pillow.Props
