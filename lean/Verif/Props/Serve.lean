import Verif.Lemmas.Serve
set_option linter.unusedSimpArgs false
set_option linter.unusedVariables false
/-!
# C08, C52: what a client receives from a server whose answers are a function of the request
-/
namespace Pillow.Props
open Pillow Pillow.Spec

/-- The connection has done all it will do with what it received: it waits for more input, or it is about to close or has
closed by itself. -/
def Done (s : Conf) : Prop := Waiting s ∨ MustClose s.c.log ∨ ∃ u, Ev.closed false u ∈ epoch s.c.log

theorem closed_stays {log : List Ev} {ph : Phase} (h : Runs false log ph) (hu : ∃ f u, Ev.closed f u ∈ epoch log) : ph = .closed := by
  induction h with
  | start => obtain ⟨f, u, h⟩ := hu; simp [epoch] at h
  | step log p q e hr hn ih =>
    obtain ⟨f, u, hu⟩ := hu
    rw [epoch_snoc] at hu
    split at hu
    · simp at hu
    · rename_i hne
      rcases List.mem_append.1 hu with hu | hu
      · have := ih ⟨f, u, hu⟩
        subst this
        cases hn with
        | init => exact absurd rfl hne
        | recv => rfl
        | forced p u h _ => exact absurd rfl h
        | again h => cases h
      · simp at hu
        subst hu
        cases hn <;> rfl

theorem runs_loose {log : List Ev} {ph : Phase} (h : Runs false log ph) : Runs true log ph := by
  induction h with
  | start => exact .start
  | step log p q e hr hn ih =>
    refine .step log p q e ih ?_
    cases hn with
    | init p h => exact .init p h
    | recv p bs => exact .recv p bs
    | interim => exact .interim
    | ready i r h => exact .ready i r h
    | error code => exact .error code
    | head r h hh => exact .head r h hh
    | body r h n bs h1 h2 h3 h4 h5 => exact .body r h n bs h1 h2 h3 h4 h5
    | chunk r h n bs h1 h2 h3 h4 => exact .chunk r h n bs h1 h2 h3 h4
    | lastChunk r h n h1 h2 => exact .lastChunk r h n h1 h2
    | completed r h => exact .completed r h
    | completedOpen r h n h1 h2 h3 => exact .completedOpen r h n h1 h2 h3
    | forced p u h1 h2 => exact .forced p u h1 h2
    | drained => exact .drained
    | again h => cases h

/-- C08, C52: what is written is exactly the answers to the requests handed out, in order, each preceded by the interim
response if the request asks for it; nothing else, except an error reply at the end, or the interim response to a request
whose content is still to come. -/
theorem C08_responses (f : ReqView → Answer) (hs : Sane f) (s : Conf) (hr : Reach (Serves f) s) :
    (Waiting s → (∀ r ∈ readys (epoch s.c.log), Keeps f r) ∧
      wireOf (epoch s.c.log) = replies f (readys (epoch s.c.log)) ++ (if interimSince s.c.log then continueBytes else [])) ∧
    (MustClose s.c.log ∨ (∃ u, Ev.closed false u ∈ epoch s.c.log) → Final f (epoch s.c.log)) := by
  obtain ⟨-, ph, hp, hw⟩ := sinv_reach hs hr
  constructor
  · intro hwait
    have hc := reach_core (reach_mono (fun s l h => h.1) (serves_gentle hr)) (by rw [inEnv_iff]; exact .inl hwait.idle) hwait.alive
      (by rcases hwait.state with e | e <;> rw [e] <;> simp) (by rcases hwait.state with e | e <;> rw [e] <;> simp)
    obtain ⟨ph', hp', hd⟩ := hc.data
    cases runs_det (runs_loose hp) hp'
    rw [hwait.idle] at hd
    have hd : Settled true s.c ph := hd
    have : ∃ i, ph = .recv i := by
      rcases hwait.state with e | e
      · exact ⟨_, ((settled_recvH e).1 hd).1⟩
      · obtain ⟨reqs', hd', tail', m, h1, -⟩ := (settled_recvC e).1 hd
        exact ⟨_, h1.phase⟩
    obtain ⟨i, rfl⟩ := this
    obtain ⟨-, h2, h3⟩ := hw
    rw [interim_phase hp i rfl]
    exact ⟨h2, h3⟩
  · rintro (hm | ⟨u, hu⟩)
    · have := mustClose_phase hm (runs_loose hp)
      subst this
      exact hw.2
    · have := closed_stays hp ⟨_, u, hu⟩
      subst this
      rcases hw with ⟨-, h⟩ | h
      · exact absurd hu (h u)
      · exact h

theorem interim_same {s t : Conf} (hs : Reach Proper s) (ht : Reach Proper t) (ws : Waiting s) (wt : Waiting t)
    (he : received (epoch s.c.log) = received (epoch t.c.log)) : interimSince s.c.log = true → interimSince t.c.log = true := by
  intro hi
  have hc := reach_core hs (by rw [inEnv_iff]; exact .inl ws.idle) ws.alive
    (by rcases ws.state with e | e <;> rw [e] <;> simp) (by rcases ws.state with e | e <;> rw [e] <;> simp)
  obtain ⟨ph, hp, hd⟩ := hc.data
  rw [ws.idle] at hd
  have hd : Settled true s.c ph := hd
  have hin : s.c.inp = [] := ws.allRead
  rcases ws.state with e | e
  · rw [interim_phase hp _ ((settled_recvH e).1 hd).1] at hi; cases hi
  · obtain ⟨reqs, h, tail, m, h1, h2, h3⟩ := (settled_recvC e).1 hd
    have hh := h1.head.hist.stream
    rw [hin, List.append_nil] at hh
    have ha : Acceptable h m := ⟨h1.head.wf, h1.head.short, h1.announced, h1.small⟩
    rw [C25_in_time s hs ws reqs h tail m hh ha (h3 rfl)] at hi
    rw [he] at hh
    rwa [C25_in_time t ht wt reqs h tail m hh ha (h3 rfl)]

/-- Of two lists of requests, one a prefix of the other, that both end with the only request that is not kept. -/
theorem last_unique {α : Type} {K : α → Prop} {p q : List α} {a b : α} (hp : ∀ x ∈ p, K x) (hq : ∀ x ∈ q, K x) (ha : ¬ K a) (hb : ¬ K b)
    (h : p ++ [a] <+: q ++ [b]) : p ++ [a] = q ++ [b] := by
  obtain ⟨t, ht⟩ := h
  cases ht' : t.reverse with
  | nil => have : t = [] := by simpa using ht'
           rw [this] at ht; simpa using ht
  | cons x t' =>
    have : t = t'.reverse ++ [x] := by rw [← List.reverse_reverse t, ht']; simp
    subst this
    rw [← List.append_assoc] at ht
    obtain ⟨h1, h2⟩ := List.append_inj' ht rfl
    have : a ∈ q := by rw [← h1]; simp
    exact absurd (hq a this) ha

/-- C08: however the bytes were delivered, whenever the connection got control and however the device drained: two
connections that received the same bytes, with handlers that give the same answers, have handed out the same requests and
written the same bytes, as soon as both have done what they can do. -/
theorem C08_same_responses (f : ReqView → Answer) (hf : Sane f) (s t : Conf) (hs : Reach (Serves f) s) (ht : Reach (Serves f) t)
    (ds : Done s) (dt : Done t) (he : received (epoch s.c.log) = received (epoch t.c.log)) :
    readys (epoch s.c.log) = readys (epoch t.c.log) ∧ wireOf (epoch s.c.log) = wireOf (epoch t.c.log) := by
  have ps : Reach Proper s := reach_mono (fun s l h => h.1) (serves_gentle hs)
  have pt : Reach Proper t := reach_mono (fun s l h => h.1) (serves_gentle ht)
  obtain ⟨as, bs⟩ := C08_responses f hf s hs
  obtain ⟨at', bt⟩ := C08_responses f hf t ht
  -- waiting against final
  have key : ∀ s t, Reach (Serves f) s → Reach (Serves f) t → received (epoch s.c.log) = received (epoch t.c.log) → Waiting s →
      Final f (epoch t.c.log) → False := by
    intro s t hs ht he ws ft
    have ps : Reach Proper s := reach_mono (fun s l h => h.1) (serves_gentle hs)
    have pt : Reach Proper t := reach_mono (fun s l h => h.1) (serves_gentle ht)
    rcases ft with ⟨code, h1, -⟩ | ⟨-, pre, r, h2, -, h4, -⟩
    · exact (C08_same_error t s pt ps he.symm code h1).2.1 ws
    · have h5 := ((C08_responses f hf s hs).1 ws).1
      obtain ⟨reqs, rest, h6, h7, -⟩ := C13_exact_requests t pt
      rw [← he] at h6
      have := (C13_nothing_held_back s ps ws reqs rest h6).1
      rw [← h7, h2] at this
      exact h4 (h5 r (this.subset (by simp)))
  rcases ds with ws | fs <;> rcases dt with wt | ft
  · obtain ⟨h1, -⟩ := C08_same_requests s t ps pt ws wt he
    refine ⟨h1, ?_⟩
    rw [(as ws).2, (at' wt).2, h1]
    have : interimSince s.c.log = interimSince t.c.log := by
      have h1 := interim_same ps pt ws wt he
      have h2 := interim_same pt ps wt ws he.symm
      cases hx : interimSince s.c.log <;> cases hy : interimSince t.c.log <;> simp_all
    rw [this]
  · exact (key s t hs ht he ws (bt ft)).elim
  · exact (key t s ht hs he.symm wt (bs fs)).elim
  · rcases bs fs with ⟨c1, x1, x2, x3⟩ | ⟨x0, p1, r1, x1, x2, x3, x4⟩ <;>
      rcases bt ft with ⟨c2, y1, y2, y3⟩ | ⟨y0, p2, r2, y1, y2, y3, y4⟩
    · obtain ⟨h1, h2⟩ := (C08_same_error s t ps pt he c1 x1).2.2 c2 y1
      refine ⟨h2.symm, ?_⟩
      rw [x3, y3, h2, h1]
    · have := (C08_same_error s t ps pt he c1 x1).1
      rw [y1] at this
      exact absurd (x2 r2 (this.subset (by simp))) y3
    · have := (C08_same_error t s pt ps he.symm c2 y1).1
      rw [x1] at this
      exact absurd (y2 r1 (this.subset (by simp))) x3
    · have h : readys (epoch s.c.log) = readys (epoch t.c.log) := by
        rcases C08_prefix s t ps pt he with h | h <;> rw [x1, y1] at h ⊢
        · exact last_unique x2 y2 x3 y3 h
        · exact (last_unique y2 x2 y3 x3 h).symm
      exact ⟨h, by rw [x4, y4, h]⟩

instance (f : ReqView → Answer) (s : Conf) (l : Label) : Decidable (Serves f s l) :=
  match l with
  | .call (.writeResponse st hs ct) => inferInstanceAs (Decidable (_ ∧ (_ → _)))
  | .call (.writeHeaders _ _) => isFalse fun h => h.2
  | .call (.writeContent _) => isFalse fun h => h.2
  | .call .endContent => isFalse fun h => h.2
  | .call .processInput | .call .flush | .call .drain | .call .close | .tau _ | .ret | .recv _ | .bytesWritten _ | .init | .readParams
  | .setParam _ _ | .readDecoded _ => decidable_of_iff (Gentle s _) ⟨fun h => ⟨h, trivial⟩, fun h => h.1⟩

/-- A handler that answers with a constant is sane. -/
theorem constant_sane : Sane fun _ => ⟨200, [], b!"hello"⟩ := fun _ => ⟨rfl, by simp⟩

/-- The hypotheses of C08 are met: two requests in one piece, the second answered from inside the completion of the first. -/
example : ∃ s, Reach (Serves fun _ => ⟨200, [], b!"hello"⟩) s ∧ Done s ∧ (readys (epoch s.c.log)).length = 2 := by
  obtain ⟨t, h1, h2⟩ := exists_of_endsIn (allowed := Serves fun _ => ⟨200, [], b!"hello"⟩)
    (ls := [.init, .recv b!"GET /a HTTP/1.1\r\n\r\nGET /b HTTP/1.1\r\n\r\n", .call .processInput] ++ taus 3 ++
      [.call (.writeResponse 200 [] b!"hello")] ++ taus 7 ++ [.ret] ++ taus 2 ++ [.ret] ++ taus 4 ++
      [.call (.writeResponse 200 [] b!"hello")] ++ taus 7 ++ [.ret] ++ taus 1 ++ [.tau 1000, .ret] ++ taus 2 ++ [.ret, .ret])
    (p := fun s => s.stack == [] && s.c.fault == none && unread s.c == [] && s.c.st == .receivingHeaders &&
      (readys (epoch s.c.log)).length == 2) (by decide +kernel)
  simp only [Bool.and_eq_true, beq_iff_eq] at h2
  obtain ⟨⟨⟨⟨a, b⟩, c⟩, d⟩, e⟩ := h2
  exact ⟨t, h1, .inl ⟨a, b, c, .inl d⟩, e⟩

end Pillow.Props
