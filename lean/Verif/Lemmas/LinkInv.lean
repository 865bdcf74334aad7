import Verif.Lemmas.ClientOnce
import Verif.Lemmas.ServerLink
import Verif.Lemmas.ClientCut
import Verif.Lemmas.ClientGone
import Verif.Spec.Link
/-!
# A client and servers of the library, connected: the ledger of the client, and what it does with beginnings of answers
-/
namespace Pillow.Props.Pair
open Pillow Pillow.Spec Pillow.Spec.Pair Pillow.Props

/-! ## The ledger -/

theorem ledger_append (a b : List CEv) : ledger (a ++ b) = b.foldl Ledger.next (ledger a) := by simp [ledger, List.foldl_append]

theorem ledger_snoc (a : List CEv) (e : CEv) : ledger (a ++ [e]) = (ledger a).next e := by simp [ledger_append]

theorem minors_fold : ∀ (l : List CEv) (t : Ledger), Minors l → l.foldl Ledger.next t = { t with taken := t.taken ++ taken l }
  | [], t, _ => by simp [taken]
  | e :: l, t, h => by
    have hl : Minors l := fun x hx => h x (by simp [hx])
    have he := h e (by simp)
    rw [List.foldl_cons, minors_fold l _ hl]
    cases e <;> first | exact he.elim | simp [Ledger.next, taken]

theorem ledger_minors {a l : List CEv} (h : Minors l) : ledger (a ++ l) = { (ledger a) with taken := (ledger a).taken ++ taken l } := by
  rw [ledger_append, minors_fold l _ h]

def pairs (xs : List Entry) : List (ClientRequest × Bytes) := xs.map fun x => (x.request, x.data)

theorem pairs_append (a b : List Entry) : pairs (a ++ b) = pairs a ++ pairs b := by simp [pairs]

theorem ledger_talk (log : List CEv) : (ledger log).last = (log.foldl Talk.next {}).last ∧ pairs (ledger log).entries = said log := by
  unfold said
  induction log using list_snoc_ind with
  | h0 => exact ⟨rfl, rfl⟩
  | h1 l e ih =>
    rw [talk_snoc, ledger_snoc]
    obtain ⟨h1, h2⟩ := ih
    generalize l.foldl Talk.next {} = t at h1 h2 ⊢
    generalize ledger l = g at h1 h2 ⊢
    cases e with
    | accepted r => exact ⟨rfl, h2⟩
    | connectToHost a b => exact ⟨h1, rfl⟩
    | write p d =>
      refine ⟨h1, ?_⟩
      show pairs (g.entries ++ (g.last.map (Entry.mk · d none)).toList) = t.said ++ (t.last.map (·, d)).toList
      rw [pairs_append, h2, ← h1]
      cases g.last <;> rfl
    | finished e st hs ct =>
      refine ⟨h1, ?_⟩
      show _ = t.said
      rw [← h2]
      simp only [Ledger.next, Ledger.entries, pairs_append]
      cases g.current <;> rfl
    | _ => exact ⟨h1, h2⟩

theorem connects_append (a b : List CEv) : connects (a ++ b) = connects a + connects b := by simp [connects]

theorem connects_minors {l : List CEv} (h : Minors l) : connects l = 0 := by
  unfold connects
  rw [List.length_eq_zero_iff, List.filter_eq_nil_iff]
  intro e he
  have := h e he
  cases e <;> first | exact this.elim | simp

theorem minors_no_finished {l : List CEv} (h : Minors l) {e : CError} {st : Nat} {hs : Headers} {ct : Bytes} : .finished e st hs ct ∉ l := fun hm => (h _ hm).elim

/-! ## A client that has nothing to read -/

structure Staying (c c' : Client) : Prop where
  log : ∃ l, c'.log = c.log ++ l ∧ Minors l
  pending : c'.responsePending = true
  state : c'.sock.state = c.sock.state
  request : c'.request = c.request
  scripts : Scripts c'

structure Writing (c c' : Client) : Prop where
  log : ∃ p d, c'.log = c.log ++ [.write p d]
  pending : c'.responsePending = true
  connected : c'.sock.state = .connected
  request : c'.request = c.request
  scripts : Scripts c'

theorem makeRequest_staying {c : Client} (em : Signal → Client → Client) (hp : c.responsePending = true) (hsc : Scripts c) (r : ClientRequest) : Staying c (c.makeRequest em r) := by
  unfold Client.makeRequest
  rw [if_pos hp]
  exact ⟨⟨[.refused r], rfl, minors_one trivial⟩, hp, rfl, rfl, hsc.same rfl rfl rfl⟩

theorem empty_step (env : ClientEnv) (fuel : Nat) {c : Client} (hp : c.responsePending = true) (hrx : c.sock.rx = []) (hsc : Scripts c) (i : CInput) (hi : Steady i) (ho : ∀ bs, i ≠ .arrive bs) :
    Staying c (c.step env fuel i) ∨ Writing c (c.step env fuel i) := by
  have same : ∀ c' : Client, c'.log = c.log → c'.responsePending = c.responsePending → c'.sock.state = c.sock.state → c'.request = c.request → c'.onHeaders = c.onHeaders → c'.onContent = c.onContent →
      c'.onConnect = c.onConnect → Staying c c' := fun c' e1 e2 e3 e4 e5 e6 e7 => ⟨⟨[], by simp [e1], minors_nil⟩, e2.trans hp, e3, e4, hsc.same e5 e6 e7⟩
  have read : ∀ c' : Client, c'.sock.rx = [] → c'.responsePending = true → c'.readyRead env (Client.emit env fuel) = c' := by
    intro c' h1 h2
    unfold Client.readyRead
    rw [if_neg (by simp [h2]), if_pos (by rw [h1]; rfl)]
  cases i with
  | call u =>
    refine .inl ?_
    cases u with
    | request r => exact makeRequest_staying _ hp hsc r
    | abort => exact absurd rfl hi
    | consumeContent =>
      show Staying c c.consumeContent
      unfold Client.consumeContent
      dsimp only
      split <;> exact ⟨⟨[.consumed c.d.content], rfl, minors_one trivial⟩, hp, rfl, rfl, hsc.same rfl rfl rfl⟩
    | followRedirection =>
      show Staying c (c.followRedirection env _)
      unfold Client.followRedirection
      dsimp only
      split
      · exact ⟨⟨[.followRedirection], rfl, minors_one trivial⟩, hp, rfl, rfl, hsc.same rfl rfl rfl⟩
      · obtain ⟨⟨l, h1, h2⟩, h3, h4, h5, h6⟩ := makeRequest_staying (c := c.add .followRedirection) (Client.emit env fuel) hp (hsc.same rfl rfl rfl)
          { (c.add .followRedirection).request with url := env.parseUrl (c.add .followRedirection).redirectionLocation }
        exact ⟨⟨.followRedirection :: l, by rw [h1]; simp [Client.add], minors_append (minors_one (e := .followRedirection) trivial) h2⟩, h3, h4, h5, h6⟩
    | setKeepAliveTimeout ms => exact same _ rfl rfl rfl rfl rfl rfl rfl
    | setReadBufferSize n => exact same _ rfl rfl rfl rfl rfl rfl rfl
  | connected =>
    simp only [Client.step]
    split
    · refine .inr ?_
      have hk := sendRequest_sock { c with sock := { c.sock with state := .connected } }
      obtain ⟨m1, m2, m3, m4⟩ := sendRequest_facts { c with sock := { c.sock with state := .connected } }
      exact ⟨hk.2.2 hp, hk.2.1.trans hp, by rw [hk.1], m1, hsc.same m2 m3 m4⟩
    · exact .inl (same _ rfl rfl rfl rfl rfl rfl rfl)
  | error b => exact hi.elim
  | arrive bs => exact absurd rfl (ho bs)
  | readyRead =>
    refine .inl ?_
    show Staying c (c.readyRead env (Client.emit env fuel))
    rw [read c hrx hp]
    exact same _ rfl rfl rfl rfl rfl rfl rfl
  | disconnected => exact hi.elim
  | unsent b => exact .inl (same _ rfl rfl rfl rfl rfl rfl rfl)
  | timeout =>
    refine .inl ?_
    simp only [Client.step]
    split
    · exact same _ rfl rfl rfl rfl rfl rfl rfl
    · rw [read { c with timers := c.timers - 1 } hrx hp]
      exact same _ rfl rfl rfl rfl rfl rfl rfl
  | tick ms => exact .inl (same _ rfl rfl rfl rfl rfl rfl rfl)

/-! ## A client that is being answered -/

/-- The answer is not complete yet: nothing is finished. -/
structure Unanswered (c0 c : Client) : Prop where
  pending : c.responsePending = true
  connected : c.sock.state = .connected
  log : ∃ l, c.log = c0.log ++ l ∧ ∀ e st hs ct, .finished e st hs ct ∉ l

theorem seen_none {m : Response} {l : List CEv} {ct all : Bytes} (h : SeenSome m l ct all) : ∀ e st hs ct, .finished e st hs ct ∉ l := by
  intro e st hs ct hm
  have := h.signals.subset (signals_mem hm)
  simp at this

theorem broken_unanswered {env : ClientEnv} {fuel : Nat} {c : Client} (ht : Top c) (hf : Fresh c) (h : Expecting c) {interims : List Response} {m : Response} {inputs : List CInput} {more : Bytes}
    (ha : BreaksOff c.request interims m inputs more) : Unanswered c (c.run env fuel inputs) := by
  obtain ⟨hd, d1, d2⟩ := fits_of ha.answers
  obtain ⟨t, h1, h2⟩ := awaiting_mid env true hd h.pending h.connected (by simp) (mellow_true h.onHeaders) (mellow_true h.onContent) d1 ht hf
  have hp := await_pos (env := env) (O := interims) d2 ha.final h2 interims fun i hi => ⟨ha.continues i hi, hi⟩
  rcases run_paced_more (fuel := fuel) (more := more) d2 ha.final ha.steady h1 hp (by rw [hf.rx, List.nil_append]; exact ha.begins) (by rw [List.length_map]; exact ha.few) with ⟨-, k⟩ | ⟨U, p, t, is, v, k1, k2, k3, k4⟩
  · exact absurd k ha.missing
  · obtain ⟨l, all, e1, -, e3⟩ := mid_some (fuel := fuel) d2 ha.final k1 k2 k3 k4
    exact ⟨mid_pending k1, k1.told.state, l, e1, seen_none e3⟩

theorem paced_answered {env : ClientEnv} {fuel : Nat} {c : Client} (ht : Top c) (hf : Fresh c) (h : Expecting c) {interims : List Response} {m : Response} {inputs : List CInput}
    (ha : Paced c.request interims m inputs) : (Reports env (IsHead c.request) c.log (c.run env fuel inputs).log m ∧ Fresh (c.run env fuel inputs)) ∨
      (Unanswered c (c.run env fuel inputs) ∧ (c.run env fuel inputs).sock.rx ≠ []) := by
  obtain ⟨hd, d, hw, h⟩ := paced_along (fuel := fuel) (env := env) ht hf h ha
  rw [← d]
  rcases h with h | h
  · exact .inl h
  · rcases along_open (.inr h) with k | k
    · exact .inl k
    · obtain ⟨U, p, t, is, v, k1, k2, k3, k4⟩ := h
      obtain ⟨l, all, e1, -, e3⟩ := mid_some (fuel := fuel) (more := []) hw ha.final k1 k2 (by rw [List.append_nil]; exact k3) k4
      exact .inr ⟨⟨mid_pending k1, k1.told.state, l, e1, seen_none e3⟩, k.2⟩

/-- What the application has seen of an answer that is on its way. -/
theorem begun_seen {env : ClientEnv} {fuel : Nat} {c : Client} (ht : Top c) (hf : Fresh c) (h : Expecting c) {interims : List Response} {m : Response} {inputs : List CInput}
    (ha : Begun c.request interims m inputs) {l : List CEv} (hl : (c.run env fuel inputs).log = c.log ++ l) (hnf : ∀ e st hs ct, .finished e st hs ct ∉ l) (hz : ¬ Gzipped m.head.shown ∨ env.inflate = none) :
    taken l ++ (c.run env fuel inputs).d.content <+: m.content := by
  obtain ⟨hd, d1, d2⟩ := fits_of ha.answers
  obtain ⟨t, h1, h2⟩ := awaiting_mid env true hd h.pending h.connected (by simp) (mellow_true h.onHeaders) (mellow_true h.onContent) d1 ht hf
  have hpos := await_pos (env := env) (O := interims) d2 ha.final h2 interims fun i hi => ⟨ha.continues i hi, hi⟩
  obtain ⟨more, hmore⟩ := ha.begins
  rcases run_paced_more (fuel := fuel) (more := more) d2 ha.final ha.steady h1 hpos (by rw [hf.rx, List.nil_append]; exact hmore) (by rw [List.length_map]; exact ha.few) with ⟨k, -⟩ | ⟨U, p, t', is, v, m1, m2, m3, m4⟩
  · exfalso
    obtain ⟨l1, ct, l2, all, k1, -⟩ := k.1
    rw [hl, List.append_assoc] at k1
    have k1 := List.append_cancel_left k1
    exact hnf .noError (num m.head.status) m.head.shown ct (by rw [k1]; simp)
  · obtain ⟨l', all, e1, e2, e3⟩ := mid_some (fuel := fuel) d2 ha.final m1 m2 m3 m4
    rw [hl] at e1
    have e1 := List.append_cancel_left e1
    subst e1
    rw [← show all = m.content from e2.2 (hz.imp id Or.inl)]
    exact e3.content

/-- What is a beginning of `a`, however it goes on. -/
theorem prefix_of_padded {x a : Bytes} {n k : Nat} (h1 : x <+: a ++ List.replicate n 0) (h2 : x <+: a ++ List.replicate k 1) : x <+: a := by
  rcases Nat.lt_or_ge a.length x.length with h | h
  · exfalso
    obtain ⟨t, h1⟩ := h1
    obtain ⟨s, h2⟩ := h2
    have e1 : (x ++ t)[a.length]? = some x[a.length] := by rw [List.getElem?_append_left h, List.getElem?_eq_getElem h]
    have e2 : (x ++ s)[a.length]? = some x[a.length] := by rw [List.getElem?_append_left h, List.getElem?_eq_getElem h]
    rw [h1, List.getElem?_append_right (Nat.le_refl _)] at e1
    rw [h2, List.getElem?_append_right (Nat.le_refl _)] at e2
    have e1 := List.eq_of_mem_replicate (List.mem_of_getElem? e1)
    have e2 := List.eq_of_mem_replicate (List.mem_of_getElem? e2)
    rw [e1] at e2
    exact absurd e2 (by decide)
  · exact List.prefix_of_prefix_length_le h1 (List.prefix_append _ _) h

/-- The first `finished()` after `c0`. -/
theorem first_finished {B l1 l1' l2 l2' : List CEv} {e e' : CError} {st st' : Nat} {hs hs' : Headers} {ct ct' : Bytes} (h : B ++ l1 ++ .finished e st hs ct :: l2 = B ++ l1' ++ .finished e' st' hs' ct' :: l2')
    (h1 : ∀ e st hs ct, .finished e st hs ct ∉ l1) (h2 : ∀ e st hs ct, .finished e st hs ct ∉ l1') : l1 = l1' ∧ e = e' ∧ st = st' ∧ hs = hs' ∧ ct = ct' ∧ l2 = l2' := by
  rw [List.append_assoc, List.append_assoc] at h
  have h := List.append_cancel_left h
  rcases List.append_eq_append_iff.1 h with ⟨x, h3, h4⟩ | ⟨x, h3, h4⟩
  · cases x with
    | nil => simp at h3 h4; simp [h3, h4]
    | cons y x =>
      simp only [List.cons_append, List.cons.injEq] at h4
      exact absurd (by rw [h3, h4.1]; simp) (h2 e st hs ct)
  · cases x with
    | nil => simp at h3 h4; simp [h3, h4]
    | cons y x =>
      simp only [List.cons_append, List.cons.injEq] at h4
      exact absurd (by rw [h3, h4.1]; simp) (h1 e' st' hs' ct')

end Pillow.Props.Pair
