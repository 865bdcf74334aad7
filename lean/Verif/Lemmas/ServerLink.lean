import Verif.Lemmas.ServerWire
import Verif.Lemmas.LogStep
import Verif.Props.Reuse
import Verif.Props.ThinParser
set_option linter.unusedSimpArgs false
/-!
# A server that is sent requests of a client of the library
-/
namespace Pillow.Props.Pair
open Pillow Pillow.Spec Pillow.Spec.Pair Pillow.Props

/-! ## Only `recvContent` writes interim responses -/

def NoInterim (a b : List Ev) : Prop := b = a ∨ ∃ e, e ≠ .interim ∧ b = a ++ [e]

theorem NoInterim.rfl {a : List Ev} : NoInterim a a := .inl (Eq.refl a)

theorem noi_write (c : Conn) (e : Ev) (h : e ≠ .interim) : NoInterim c.log (c.write e).log := by
  unfold Conn.write; split
  · exact .inl (Eq.refl _)
  · exact .inr ⟨e, h, Eq.refl _⟩

theorem noi_write_of {a : List Ev} (c : Conn) (e : Ev) (h : e ≠ .interim) (ha : c.log = a) : NoInterim a (c.write e).log := ha ▸ noi_write c e h

theorem exec_noi (k : Nat) (i : Instr) (c : Conn) (hne : i ≠ .recvContent) : NoInterim c.log (exec k i c).1.log := by
  cases i with
  | env => exact .rfl
  | processInput =>
    simp only [exec, Conn.processInput]
    repeat' split
    all_goals exact .inl (by simp [Conn.fill, Conn.parse])
  | recvContent => exact absurd rfl hne
  | sendHeaders =>
    simp only [exec, Conn.sendHeaders]
    split
    · exact .rfl
    · have key : ∀ (c2 : Conn) (r : ReqView), c2.log = c.log → NoInterim c.log (c2.emit (.ready r)).log := fun c2 r h2 =>
        .inr ⟨.ready r, by simp, by simp [Conn.emit, h2]⟩
      apply key
      split <;> exact Eq.refl _
  | sendContent =>
    simp only [exec, Conn.sendContent]
    repeat' split
    all_goals first | exact .rfl | exact .inl (log_view _)
  | sendContentRest => simp only [exec, Conn.sendContentRest]; split <;> exact .rfl
  | completed =>
    simp only [exec, Conn.complete]
    split
    · exact .rfl
    · exact .inr ⟨.completed, by simp, Eq.refl _⟩
  | completedRest => simp only [exec, Conn.completedRest]; split <;> exact .rfl
  | completedRest2 => simp only [exec, Conn.completedRest2, Conn.toReceivingHeaders]; split <;> exact .rfl
  | flush => simp only [exec, Conn.flush]; repeat' split
             all_goals exact .rfl
  | drain => simp only [exec, Conn.drain]; split <;> exact .rfl
  | drainRest => simp only [exec, Conn.drainRest]; repeat' split
                 all_goals exact .rfl
  | flushing => simp only [exec, Conn.toFlushing]; split <;> exact .rfl
  | flushingRest => simp only [exec, Conn.flushingRest]; repeat' split
                    all_goals exact .rfl
  | closed f =>
    simp only [exec, Conn.toClosed]
    split
    · exact .rfl
    · exact .inr ⟨_, by simp, Eq.refl _⟩
  | closedRest => exact .rfl
  | errorResponse code =>
    simp only [exec, Conn.errorResponse]
    split
    · exact .rfl
    · exact noi_write _ _ (by simp)
  | writeResponse st hs ct => simp only [exec, Conn.writeResponse]; split <;> exact .rfl
  | writeResponseRest ct =>
    simp only [exec, Conn.writeResponseRest]
    repeat' split
    all_goals first | exact .rfl | exact .inl (log_view _)
  | writeHeaders st hs =>
    simp only [exec, Conn.writeHeaders]
    repeat' split
    · exact .rfl
    · exact .inl (log_view _)
    · exact noi_write_of _ _ (by simp) (log_view _)
  | writeContent ct =>
    simp only [exec, Conn.writeContent]
    split
    · exact .rfl
    split
    · exact .rfl
    split
    · exact .rfl
    split
    · split
      · exact .inl (log_view _)
      · split <;> split <;> exact noi_write_of _ _ (by simp) (log_view _)
    · exact .rfl
  | endContent =>
    simp only [exec, Conn.endContent]
    repeat' split
    all_goals first | exact .rfl | exact noi_write _ _ (by simp)

theorem interim_origin {s s' : Conf} {l : Label} (h : s.step l = some s') (he : s'.c.log = s.c.log ++ [.interim]) : ∃ rest, s.stack = .recvContent :: rest := by
  have key : NoInterim s.c.log s'.c.log → ∃ rest, s.stack = .recvContent :: rest := by
    rintro (h | ⟨e, h1, h2⟩)
    · rw [h] at he; simp at he
    · rw [he] at h2; simp at h2; exact absurd h2.symm h1
  unfold Conf.step at h
  split at h
  · cases h
  cases l with
  | tau k =>
    dsimp only at h
    split at h
    · cases h
    · cases h
    · rename_i i rest _ hs
      cases h
      by_cases hi : i = .recvContent
      · subst hi; exact ⟨rest, hs⟩
      · exact key (exec_noi k _ _ hi)
  | call a => dsimp only at h; split at h <;> cases h; exact key .rfl
  | ret => dsimp only at h; split at h <;> cases h; exact key .rfl
  | recv bs =>
    dsimp only at h
    split at h
    · split at h <;> cases h
      exact key (.inr ⟨.recv bs, by simp, rfl⟩)
    · cases h
  | bytesWritten k =>
    dsimp only at h
    split at h
    · split at h <;> cases h
      exact key .rfl
    · cases h
  | init =>
    dsimp only at h
    split at h <;> cases h
    exact key (.inr ⟨.init, by simp, by simp only [Conn.initialize, Conn.emit, Conn.toReceivingHeaders]; split <;> rfl⟩)
  | readParams => dsimp only at h; split at h <;> cases h; refine key ?_; simp only [Conn.requestParams]; split <;> exact .rfl
  | setParam n v => dsimp only at h; split at h <;> cases h; refine key ?_; simp only [Conn.setRequestParam, Conn.requestParams]; split <;> exact .rfl
  | readDecoded d =>
    dsimp only at h
    split at h <;> cases h
    refine key ?_
    cases d <;> simp only [Conn.readDecoded] <;> split <;> exact .rfl

/-- An interim response is only written when the next request has begun to arrive. -/
theorem interim_reach {s : Conf} (h : Reach Proper s) : ∀ a b, s.c.log = a ++ .interim :: b → ∃ reqs rest, Requests (received (epoch a)) reqs rest ∧ readys (epoch a) = shownAll reqs ∧ rest ≠ [] := by
  induction h with
  | start => intro a b e; have : ([] : List Ev) = a ++ .interim :: b := e; simp at this
  | step s s' l hr hp hs ih =>
    intro a b e
    have hstep : ∀ x, s'.c.log = s.c.log ++ [x] → (x = .interim → ∃ reqs rest, Requests (received (epoch s.c.log)) reqs rest ∧ readys (epoch s.c.log) = shownAll reqs ∧ rest ≠ []) →
        ∃ reqs rest, Requests (received (epoch a)) reqs rest ∧ readys (epoch a) = shownAll reqs ∧ rest ≠ [] := by
      intro x hx hi
      rw [hx] at e
      rcases List.eq_nil_or_concat b with rfl | ⟨b', y, rfl⟩
      · obtain ⟨e1, e2⟩ := List.append_inj' e rfl
        rw [← e1]
        exact hi (by simpa using e2)
      · rw [List.concat_eq_append, show a ++ Ev.interim :: (b' ++ [y]) = (a ++ .interim :: b') ++ [y] by simp] at e
        exact ih a b' (List.append_inj' e rfl).1
    by_cases hl : l = .init
    · subst hl
      exact hstep .init (init_log hs) (by simp)
    · rcases step_one hl hs with k | ⟨x, k1, k2⟩
      · rw [k] at e; exact ih a b e
      · refine hstep x k2 fun hx => ?_
        subst hx
        obtain ⟨rest, hst⟩ := interim_origin hs k2
        rcases linv_reach hr with hc | hz | hd
        · obtain ⟨ph, -, hd⟩ := hc.data
          rw [hst] at hd
          obtain ⟨-, -, -, reqs, hh, tail, hin⟩ := hd
          refine ⟨reqs, _, hin.hist.stream, hin.hist.ready, fun e => ?_⟩
          have := congrArg List.length e
          simp [ReqHead.render] at this
        · exfalso
          generalize s.stack = st at hz hst
          cases hz with
          | z0 => cases hst
          | z1 _ _ _ _ _ _ hb => rw [hst] at hb; exact absurd (hb .recvContent rfl) (by simp [Instr.benign])
          | zf => cases hst
          | z2 _ _ _ _ _ hb => rw [hst] at hb; exact absurd (hb .recvContent rfl) (by simp [Instr.benign])
          | zp => cases hst
        · exfalso
          unfold Conf.step at hs
          rw [if_pos hd.1] at hs
          cases hs

/-! ## Requests of a client -/

/-- The connection object `s` has handled `es` since it was last initialized; what it was sent is what a client has written, `qs`, or a beginning of it. -/
structure Attached (env : ClientEnv) (qs : List (ClientRequest × Bytes)) (s : Conf) (es : List Ev) : Prop where
  reach : Reach Proper s
  log : ∃ l, s.c.log = l ++ .init :: es
  noInit : .init ∉ es
  sent : ∀ q ∈ qs, Wire q.1 q.2 ∧ Askable q.1
  received : received es <+: (qs.map (·.2)).flatten
  serves : Serves env es

theorem Attached.epoch {env : ClientEnv} {qs : List (ClientRequest × Bytes)} {s : Conf} {es : List Ev} (h : Attached env qs s es) : epoch s.c.log = es := by
  obtain ⟨l, e⟩ := h.log
  rw [e, epoch_after _ _ h.noInit]

theorem attached_requests {env : ClientEnv} {qs : List (ClientRequest × Bytes)} {s : Conf} {es : List Ev} (h : Attached env qs s es) :
    ∀ (i : Nat) (v : ReqView), (readys es)[i]? = some v → ∃ q, qs[i]? = some q ∧ Delivered q.1 v := by
  intro i v hv
  refine C58_requests qs h.sent s h.reach (by rw [h.epoch]; exact h.received) i v (by rw [h.epoch]; exact hv)

theorem attached_stream {env : ClientEnv} {qs : List (ClientRequest × Bytes)} {s : Conf} {es : List Ev} (h : Attached env qs s es) :
    ∃ reqs, Requests (qs.map (·.2)).flatten reqs [] ∧ reqs.length = qs.length := by
  obtain ⟨outs, h1, h2, h3, h4⟩ := frames_of qs h.sent
  obtain ⟨reqs, k1, k2, k3⟩ := frames_requests h1 h3
  exact ⟨reqs, k1, k2.trans h2⟩

theorem no_reason_nil (code : Int) : ¬ ErrorReason code [] := by
  have hw : exHead.Wf := exHead_wf
  rintro (⟨-, hb | ⟨h, -, hl, hp | ⟨-, hp⟩⟩⟩ | ⟨h, -, -, hp, -⟩)
  · exact (hb exHead hw).2 List.nil_prefix
  · have := List.prefix_nil.1 hp; rw [this] at hl; simp at hl
  · simp at hp
  · have := congrArg List.length (List.prefix_nil.1 hp)
    simp [ReqHead.render] at this

theorem attached_noErr {env : ClientEnv} {qs : List (ClientRequest × Bytes)} {s : Conf} {es : List Ev} (h : Attached env qs s es) (code : Int) : .errorReply code ∉ es := by
  intro hc
  obtain ⟨reqs, k1, k2⟩ := attached_stream h
  obtain ⟨reqs', rest, m1, m2, m3⟩ := C13_exact_requests s h.reach
  rw [h.epoch] at m1 m2 m3
  obtain ⟨more, hmore⟩ := h.received
  have m4 := Requests.append_rest m1 more
  rw [hmore] at m4
  have hr := errorReason_append (m3 code hc) more
  rcases Requests.unique k1 m4 with ⟨-, e⟩ | ⟨-, -, e⟩ | ⟨-, -, e⟩
  · rw [← e] at hr; exact no_reason_nil code hr
  · exact not_complete_nil e
  · exact errorReason_not_complete hr e

theorem attached_good {env : ClientEnv} {qs : List (ClientRequest × Bytes)} {s : Conf} {es : List Ev} (h : Attached env qs s es) : Good env es where
  noErr := attached_noErr h
  noInit := h.noInit
  chunks := h.serves.chunks
  heads := by
    intro a hd b r e hr
    have hmem : .head hd ∈ es := by rw [e]; simp
    obtain ⟨l, hl⟩ := h.log
    have e' : s.c.log = (l ++ .init :: a) ++ .head hd :: b := by rw [hl, e]; simp
    have hr' : (readys (l ++ .init :: a)).getLast? = some r := by
      have : readys (l ++ .init :: a) = readys l ++ readys a := by simp only [readys, List.filterMap_append]; rfl
      rw [this, List.getLast?_append, hr]; rfl
    have hv : VersionOf r b!"1" b!"1" := by
      have hmemr : r ∈ readys es := by
        have : readys es = readys a ++ readys (.head hd :: b) := by rw [e]; simp [readys]
        rw [this]
        exact List.mem_append_left _ (List.mem_of_getLast? hr)
      obtain ⟨i, hi, hir⟩ := List.mem_iff_getElem.1 hmemr
      obtain ⟨q, -, host, -, hrec⟩ := attached_requests h i r (by rw [List.getElem?_eq_getElem hi, hir])
      exact ⟨by rw [hrec.2.2.1]; rfl, ⟨1, by decide +kernel, by decide⟩, ⟨1, by decide +kernel, by decide⟩⟩
    obtain ⟨-, ph, hruns⟩ := reach_log h.reach
    obtain ⟨r', h1, ⟨lenIn, st, hs, hl', hbh⟩, -, -⟩ := head_split hruns e'
    have hch := (buildHead_facts hbh).2
    have hdel := h.serves.delimited hd hmem
    have hpos : ∀ c ∈ rfcCodes, 0 < c := by decide
    have hst := h.serves.status hd hmem
    refine ⟨head_grammar s h.reach _ _ hd e' r hr' hst.1 ?_ hv (h.serves.plain hd hmem) (h.serves.size hd hmem), ?_, hdel.imp (·.1) id, hch, h.serves.plainly hd hmem⟩
    · rcases hdel with k | k
      · omega
      · have := hch k; omega
    · have := hpos _ hst.1; have := hst.2; omega

theorem attached_base {env : ClientEnv} {qs : List (ClientRequest × Bytes)} {s : Conf} {es : List Ev} (h : Attached env qs s es) : Base env es := by
  obtain ⟨l, hl⟩ := h.log
  obtain ⟨-, ph, hruns⟩ := reach_log h.reach
  rw [hl] at hruns
  obtain ⟨q, h1, h2⟩ := runs_split hruns
  cases h2 with
  | cons _ q1 _ _ _ n1 h3 =>
    cases n1 with
    | init p hp => 
      have := base_path (pre := []) h3 (base_nil env).1 (base_nil env).2 (by simpa using attached_good h)
      simpa using this

theorem attached_few {env : ClientEnv} {qs : List (ClientRequest × Bytes)} {s : Conf} {es : List Ev} (h : Attached env qs s es) : (readys es).length ≤ qs.length := by
  rcases Nat.lt_or_ge qs.length (readys es).length with hl | hl
  · obtain ⟨q, hq, -⟩ := attached_requests h qs.length _ (List.getElem?_eq_getElem hl)
    simp at hq
  · exact hl

theorem attached_bound {env : ClientEnv} {qs : List (ClientRequest × Bytes)} {s : Conf} {es : List Ev} (h : Attached env qs s es) (hp : (cut es).part ≠ []) : (cut es).full.length < qs.length := by
  have hb := attached_base h
  have hf := attached_few h
  rcases hb.part with ⟨-, k⟩ | ⟨r, k, -, -⟩
  · rcases k hp with k | ⟨a, b, e1, e2⟩
    · omega
    · obtain ⟨l, hl⟩ := h.log
      obtain ⟨reqs', rest, m1, m2, m3⟩ := interim_reach h.reach (l ++ .init :: a) b (by rw [hl, e1]; simp)
      have hna : .init ∉ a := fun k => h.noInit (by rw [e1]; simp [k])
      rw [epoch_after _ _ hna] at m1 m2
      obtain ⟨reqs, k1, k2⟩ := attached_stream h
      obtain ⟨more, hmore⟩ := h.received
      have m4 := Requests.append_rest m1 (received (.interim :: b) ++ more)
      have : received a ++ (received (.interim :: b) ++ more) = (qs.map (·.2)).flatten := by rw [← hmore, e1]; simp [received]
      rw [this] at m4
      have hlen : reqs'.length = (readys es).length := by rw [← e2, m2]; simp [shownAll]
      have hfew := hb.few
      rcases Requests.unique k1 m4 with ⟨-, e⟩ | ⟨-, -, e⟩ | ⟨-, e, -⟩
      · exact absurd (List.append_eq_nil_iff.1 e.symm).1 m3
      · exact absurd e not_complete_nil
      · omega
  · have := (List.getElem?_eq_some_iff.1 k).1; omega

end Pillow.Props.Pair
