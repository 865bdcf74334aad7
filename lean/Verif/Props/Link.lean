import Verif.Lemmas.LinkMode
import Verif.Props.Pace
/-!
# C82: a client and servers of the library, connected
-/
namespace Pillow.Props
open Pillow Pillow.Spec Pillow.Spec.Pair Pillow.Props.Pair

namespace Pair

theorem Attached.extend {env : ClientEnv} {qs qs' : List (ClientRequest × Bytes)} {s : Conf} {es : List Ev} (h : Attached env qs s es) (hp : qs <+: qs') (hs : ∀ q ∈ qs', Wire q.1 q.2 ∧ Askable q.1) :
    Attached env qs' s es := by
  refine ⟨h.reach, h.log, h.noInit, hs, h.received.trans ?_, h.serves⟩
  obtain ⟨t, rfl⟩ := hp
  simp

theorem blank_attached {env : ClientEnv} {qs : List (ClientRequest × Bytes)} {s : Conf} (h : Blank s) (hs : ∀ q ∈ qs, Wire q.1 q.2 ∧ Askable q.1) : Attached env qs s [] := by
  obtain ⟨l, hl⟩ := h.blank
  exact ⟨h.reach, ⟨l, hl⟩, by simp, hs, List.nil_prefix, by constructor <;> simp⟩

/-- An earlier connection. -/
def Settled (env : ClientEnv) (xs : List Entry) (s : Conf) : Prop := ∃ es, Attached env (pairs xs) s es ∧ Closed env es xs

structure Inv (env : ClientEnv) (fuel : Nat) (k : Link) : Prop where
  run : ∃ onH onC onF onK inputs, k.client = (Client.new onH onC onF onK).run env fuel inputs
  top : Top k.client
  scripts : Scripts k.client
  ways : Ways k.client
  now : ∃ es, Attached env (pairs (ledger k.client.log).entries) k.server es ∧ Mode env fuel es k.arrived k.mark k.client ∧ k.arrived <+: wireOf es
  length : k.past.length = (ledger k.client.log).past.length
  past : ∀ (j : Nat) (xs : List Entry) (s : Conf), (ledger k.client.log).past[j]? = some xs → k.past[j]? = some s → Settled env xs s

theorem run_wires {env : ClientEnv} {fuel : Nat} {c : Client} (h : ∃ onH onC onF onK inputs, c = (Client.new onH onC onF onK).run env fuel inputs) (ha : ∀ q ∈ said c.log, Askable q.1) :
    ∀ q ∈ pairs (ledger c.log).entries, Wire q.1 q.2 ∧ Askable q.1 := by
  rw [(ledger_talk c.log).2]
  obtain ⟨onH, onC, onF, onK, inputs, rfl⟩ := h
  exact fun q hq => ⟨C58_written env fuel onH onC onF onK inputs q hq, ha q hq⟩

theorem run_more {env : ClientEnv} {fuel : Nat} {c : Client} (h : ∃ onH onC onF onK inputs, c = (Client.new onH onC onF onK).run env fuel inputs) (i : CInput) :
    ∃ onH onC onF onK inputs, c.step env fuel i = (Client.new onH onC onF onK).run env fuel inputs := by
  obtain ⟨onH, onC, onF, onK, inputs, rfl⟩ := h
  exact ⟨onH, onC, onF, onK, inputs ++ [i], by rw [run_append]; rfl⟩

theorem linked_inv {env : ClientEnv} {fuel : Nat} {k : Link} (h : Linked env fuel k) : Inv env fuel k := by
  induction h with
  | start onH onC onF onK s h1 h2 h3 h4 =>
    refine ⟨⟨onH, onC, onF, onK, [], rfl⟩, new_top onH onC onF onK, ⟨h1, h2, h3⟩, by rintro ⟨⟩, ⟨[], blank_attached h4 (by intro q hq; cases hq), .idle rfl (new_fresh onH onC onF onK) matched_nil rfl, List.nil_prefix⟩, rfl, ?_⟩
    intro j xs s hx; cases hx
  | @client k i hk hq hc ha ih =>
    obtain ⟨es, n1, n2, n3⟩ := ih.now
    obtain ⟨hadv, hsc⟩ := client_advance n2 ih.top ih.scripts ih.ways n1 n3 hq.other hq.seasonable hq.steady
    have hrun := run_more ih.run i
    cases hadv with
    | same k1 k2 k3 k4 =>
      exact ⟨hrun, ih.top.step env fuel i, hsc, step_ways env fuel ih.ways hq.seasonable, ⟨es, n1.extend k3 (run_wires hrun ha), k4, n3⟩, by rw [k2]; exact ih.length, by rw [k2]; exact ih.past⟩
    | anew xs k1 => exact absurd hc k1
  | @reconnect k i s hk hq hc ha hb ih =>
    obtain ⟨es, n1, n2, n3⟩ := ih.now
    obtain ⟨hadv, hsc⟩ := client_advance n2 ih.top ih.scripts ih.ways n1 n3 hq.other hq.seasonable hq.steady
    have hrun := run_more ih.run i
    cases hadv with
    | same k1 => exact absurd k1 hc
    | anew xs k1 k2 k3 k4 k5 =>
      refine ⟨hrun, ih.top.step env fuel i, hsc, step_ways env fuel ih.ways hq.seasonable, ⟨[], blank_attached hb (run_wires hrun ha), k5, List.nil_prefix⟩, ?_, ?_⟩
      · rw [k2, List.length_append, List.length_append, ih.length]; rfl
      · rw [k2]
        intro j ys t hy hs
        rcases Nat.lt_or_ge j k.past.length with hl | hl
        · rw [List.getElem?_append_left hl] at hs
          rw [List.getElem?_append_left (by rw [← ih.length]; exact hl)] at hy
          exact ih.past j ys t hy hs
        · have hj : j = k.past.length := by
            have := (List.getElem?_eq_some_iff.1 hs).1
            simp at this; omega
          subst hj
          rw [List.getElem?_append_right (by omega), Nat.sub_self] at hs
          rw [List.getElem?_append_right (by rw [ih.length]; omega), ih.length, Nat.sub_self] at hy
          cases hs; cases hy
          exact ⟨es, by rw [k3]; exact n1, k4⟩
  | @server k l s hk hs hl hr hv ih =>
    obtain ⟨es, n1, n2, n3⟩ := ih.now
    have hsp : spoken k.client.log = ((pairs (ledger k.client.log).entries).map (·.2)).flatten := by rw [(ledger_talk _).2]; rfl
    obtain ⟨l0, hl0⟩ := n1.log
    have hreach : Reach Proper s := .step k.server s l n1.reach (fun e => absurd e hl) hs
    have key : ∀ es', s.c.log = l0 ++ .init :: es' → .init ∉ es' → (es <+: es') → Inv env fuel { k with server := s } := by
      intro es' h1 h2 ⟨t, h3⟩
      have hep : epoch s.c.log = es' := by rw [h1, epoch_after _ _ h2]
      rw [hep] at hr hv
      refine ⟨ih.run, ih.top, ih.scripts, ih.ways, ⟨es', ⟨hreach, ⟨l0, h1⟩, h2, n1.sent, by rw [← hsp]; exact hr, hv⟩, by rw [← h3]; exact n2.mono t, n3.trans ?_⟩, ih.length, ih.past⟩
      rw [← h3]
      exact ⟨wireOf t, by simp [wireOf]⟩
    rcases step_one hl hs with e | ⟨x, hx, e⟩
    · exact key es (by rw [e, hl0]) n1.noInit (List.prefix_refl _)
    · refine key (es ++ [x]) (by rw [e, hl0]; simp) ?_ (List.prefix_append _ _)
      intro hm
      rcases List.mem_append.1 hm with hm | hm
      · exact n1.noInit hm
      · exact hx (List.mem_singleton.1 hm).symm
  | @down k bs hk ha ih =>
    obtain ⟨es, n1, n2, n3⟩ := ih.now
    rw [n1.epoch] at ha
    have hb := attached_base n1
    have hfew := hb.few
    have hq := attached_few n1
    have hlq : (pairs (ledger k.client.log).entries).length = (ledger k.client.log).entries.length := by simp [Pair.pairs]
    have quiet : k.arrived = (cut es).full.flatten → (ledger k.client.log).entries.length ≤ (cut es).full.length → Inv env fuel { k with client := k.client.step env fuel (.arrive bs), arrived := k.arrived ++ bs } := by
      intro h1 h2
      have hpart : (cut es).part = [] := by
        rcases Classical.em ((cut es).part = []) with h | h
        · exact h
        · have := attached_bound n1 h; omega
      have hbs : bs = [] := by
        rw [cut_wire, hpart, List.append_nil, h1] at ha
        obtain ⟨t, ht⟩ := ha
        rw [List.append_assoc] at ht
        have := congrArg List.length ht
        rw [List.length_append] at this
        have : (bs ++ t).length = 0 := by omega
        exact (List.append_eq_nil_iff.1 (List.length_eq_zero_iff.1 this)).1
      subst hbs
      have he : k.client.step env fuel (.arrive []) = k.client := by
        simp only [Client.step, List.append_nil]
        split <;> rfl
      rw [he, List.append_nil]
      exact ih
    have harr : ∀ (hm : Mode env fuel es (k.arrived ++ bs) k.mark (k.client.step env fuel (.arrive bs))), (k.client.step env fuel (.arrive bs)).log = k.client.log →
        Scripts (k.client.step env fuel (.arrive bs)) → Inv env fuel { k with client := k.client.step env fuel (.arrive bs), arrived := k.arrived ++ bs } := by
      intro hm hlog hsc
      refine ⟨run_more ih.run (.arrive bs), ih.top.step env fuel (.arrive bs), hsc, step_ways env fuel ih.ways trivial, ⟨es, ?_, hm, ha⟩, ?_, ?_⟩
      · show Attached env (pairs (ledger (k.client.step env fuel (.arrive bs)).log).entries) k.server es
        rw [hlog]; exact n1
      · show _ = (ledger (k.client.step env fuel (.arrive bs)).log).past.length
        rw [hlog]; exact ih.length
      · show ∀ (j : Nat) (xs : List Entry) (s : Conf), (ledger (k.client.step env fuel (.arrive bs)).log).past[j]? = _ → _
        rw [hlog]; exact ih.past
    have hsc := ih.scripts
    cases n2 with
    | idle h1 h2 h3 h4 =>
      refine quiet ?_ h3.len
      rw [h4, List.take_of_length_le (by omega)]
    | opening h1 h2 h3 h4 h5 h6 =>
      refine quiet ?_ (by rw [h4]; simp)
      have hl0 : (pairs (ledger k.client.log).entries).length = 0 := by rw [h4]; rfl
      rw [h6, List.length_eq_zero_iff.1 (by omega : (cut es).full.length = 0)]
      rfl
    | gone ys x h1 h2 h3 h4 h5 =>
      have he : k.client.step env fuel (.arrive bs) = k.client := by
        refine if_neg ?_
        rw [h1.state]
        simp
      exact harr (by rw [he]; exact .gone ys x h1 h2 h3 h4 h5) (by rw [he]) (by rw [he]; exact hsc)
    | waiting c0 inputs d h1 h2 h3 h4 h5 h6 h7 h8 h9 h10 h11 h12 h13 =>
      have he : k.client.step env fuel (.arrive bs) = { k.client with sock := { k.client.sock with rx := k.client.sock.rx ++ bs } } := if_pos (Or.inl h8)
      refine harr (.waiting c0 (inputs ++ [.arrive bs]) d h1 h2 h3 ?_ ?_ ?_ ?_ ?_ h9 h10 h11 ?_ h13) (by rw [he]) (by rw [he]; exact hsc.same rfl rfl rfl)
      · intro j hj
        rcases List.mem_append.1 hj with hj | hj
        · exact h4 j hj
        · rw [List.mem_singleton.1 hj]; trivial
      · rw [run_append, ← h5]; rfl
      · rw [he]; exact h6
      · rw [he]; exact h7
      · rw [he]; exact h8
      · rw [h12, List.append_assoc]
        congr 1
        simp [incoming]

/-- The waiting client, when everything has arrived. -/
theorem matched_answers {env : ClientEnv} {xs : List Entry} {s : Conf} {es : List Ev} (h : Attached env (pairs xs) s es) {ys : List Entry} (hy : Matched env (cut es).full ys) (hp : ys <+: xs) :
    ∀ (i : Nat) (x : Entry), ys[i]? = some x → ∃ o a, x.outcome = some o ∧ (answers es)[i]? = some a ∧ Delivered x.request a.request ∧ IsAnswer o a := by
  intro i x hx
  obtain ⟨f, h1, o, h2, h3⟩ := hy i x hx
  obtain ⟨a, k1, k2, k3⟩ := (attached_base h).frames i f h1
  obtain ⟨q, m1, m2⟩ := attached_requests h i _ k2
  have hxx := prefix_getElem? hx hp
  have : (pairs xs)[i]? = some (x.request, x.data) := by rw [pairs, List.getElem?_map, hxx]; rfl
  rw [this] at m1
  cases m1
  exact ⟨o, a, h2, k1, m2, h3 a k3 m2⟩

theorem closed_answers {env : ClientEnv} {xs : List Entry} {s : Conf} {es : List Ev} (h : Attached env (pairs xs) s es) (hc : Closed env es xs) :
    ∀ (i : Nat) (x : Entry), xs[i]? = some x → ∃ o, x.outcome = some o ∧ ((∃ a, (answers es)[i]? = some a ∧ Delivered x.request a.request ∧ IsAnswer o a) ∨
      (o.error ≠ .noError ∧ i + 1 = xs.length ∧ (o.content = [] ∨ ∃ a, (answers es)[i]? = some a ∧ Delivered x.request a.request ∧ IsPart o a))) := by
  rcases hc with hc | ⟨ys, y, rfl, h1, h2⟩
  · intro i x hx
    obtain ⟨o, a, m1, m2⟩ := matched_answers h hc (List.prefix_refl _) i x hx
    exact ⟨o, m1, .inl ⟨a, m2⟩⟩
  · intro i x hx
    rcases Nat.lt_or_ge i ys.length with hl | hl
    · rw [List.getElem?_append_left hl] at hx
      obtain ⟨o, a, m1, m2⟩ := matched_answers h h1 (List.prefix_append _ _) i x hx
      exact ⟨o, m1, .inl ⟨a, m2⟩⟩
    · have hi : i = ys.length := by
        have := (List.getElem?_eq_some_iff.1 hx).1
        simp at this; omega
      subst hi
      rw [List.getElem?_append_right (Nat.le_refl _), Nat.sub_self] at hx
      cases hx
      obtain ⟨o, k1, k2, k3⟩ := h2
      exact ⟨o, k1, .inr ⟨k2, by simp, k3⟩⟩

theorem attached_shown {env : ClientEnv} {xs : List Entry} {s : Conf} {es : List Ev} (h : Attached env (pairs xs) s es) :
    ∀ (i : Nat) (v : ReqView), (readys es)[i]? = some v → ∃ x, xs[i]? = some x ∧ Delivered x.request v := by
  intro i v hv
  obtain ⟨q, h1, h2⟩ := attached_requests h i v hv
  rw [pairs, List.getElem?_map] at h1
  cases hx : xs[i]? with
  | none => rw [hx] at h1; cases h1
  | some x => rw [hx] at h1; cases h1; exact ⟨x, rfl, h2⟩

end Pair

/-- **C82**: a client and the servers it talks to, as long as it exists, however the bytes travel, whatever the application and the handlers do.  Each connection of the client is served by one initialization of a
connection object.  The requests a handler is shown there are the requests the client has written to that connection, in order, with the same method, uri, headers and content.  Each request
that has ended has ended without error, with the status, headers and content the handler has written in answer to it; or it has failed, it was the last one on that connection, and the application was
given no content for it, or the status and headers the handler has written in answer to it and a beginning of the content.  Only the last request has not ended, and the client waits for it. -/
theorem C82_composed (env : ClientEnv) (fuel : Nat) (k : Link) (h : Linked env fuel k) :
    (exchanges k.client.log).length = k.servers.length ∧
    ∀ (j : Nat) (xs : List Entry) (s : Conf), (exchanges k.client.log)[j]? = some xs → k.servers[j]? = some s →
      (∀ (i : Nat) (v : ReqView), (readys (epoch s.c.log))[i]? = some v → ∃ x, xs[i]? = some x ∧ Delivered x.request v) ∧
      (∀ (i : Nat) (x : Entry) (o : Outcome), xs[i]? = some x → x.outcome = some o →
        (∃ a, (answers (epoch s.c.log))[i]? = some a ∧ Delivered x.request a.request ∧ IsAnswer o a) ∨
        (o.error ≠ .noError ∧ i + 1 = xs.length ∧ (o.content = [] ∨ ∃ a, (answers (epoch s.c.log))[i]? = some a ∧ Delivered x.request a.request ∧ IsPart o a))) ∧
      (∀ (i : Nat) (x : Entry), xs[i]? = some x → x.outcome = none → j + 1 = k.servers.length ∧ i + 1 = xs.length ∧ k.client.responsePending = true) := by
  have hi := linked_inv h
  refine ⟨by simp [exchanges, Link.servers, hi.length], fun j xs s hx hs => ?_⟩
  unfold exchanges at hx
  unfold Link.servers at hs ⊢
  rcases Nat.lt_or_ge j k.past.length with hl | hl
  · rw [List.getElem?_append_left hl] at hs
    rw [List.getElem?_append_left (by rw [← hi.length]; exact hl)] at hx
    obtain ⟨es, h1, h2⟩ := hi.past j xs s hx hs
    rw [h1.epoch]
    have hm := closed_answers h1 h2
    refine ⟨attached_shown h1, fun i x o k1 k2 => ?_, fun i x k1 k2 => ?_⟩
    · obtain ⟨o', m1, m2⟩ := hm i x k1
      rw [k2] at m1; cases m1
      exact m2
    · obtain ⟨o', m1, -⟩ := hm i x k1
      rw [k2] at m1; cases m1
  · have hj : j = k.past.length := by
      have := (List.getElem?_eq_some_iff.1 hs).1
      simp at this; omega
    subst hj
    rw [List.getElem?_append_right (by omega), Nat.sub_self] at hs
    rw [List.getElem?_append_right (by rw [hi.length]; omega), hi.length, Nat.sub_self] at hx
    cases hs; cases hx
    obtain ⟨es, h1, h2, h3⟩ := hi.now
    rw [h1.epoch]
    refine ⟨attached_shown h1, ?_⟩
    rw [show k.past.length + 1 = (k.past ++ [k.server]).length by simp]
    have fin : Closed env es (ledger k.client.log).entries →
      (∀ (i : Nat) (x : Entry) (o : Outcome), (ledger k.client.log).entries[i]? = some x → x.outcome = some o →
        (∃ a, (answers es)[i]? = some a ∧ Delivered x.request a.request ∧ IsAnswer o a) ∨
        (o.error ≠ .noError ∧ i + 1 = (ledger k.client.log).entries.length ∧ (o.content = [] ∨ ∃ a, (answers es)[i]? = some a ∧ Delivered x.request a.request ∧ IsPart o a))) ∧
      (∀ (i : Nat) (x : Entry), (ledger k.client.log).entries[i]? = some x → x.outcome = none → (k.past ++ [k.server]).length = (k.past ++ [k.server]).length ∧ i + 1 = (ledger k.client.log).entries.length ∧
        k.client.responsePending = true) := by
      intro hcl
      have hm := closed_answers h1 hcl
      refine ⟨fun i x o k1 k2 => ?_, fun i x k1 k2 => ?_⟩
      · obtain ⟨o', m1, m2⟩ := hm i x k1
        rw [k2] at m1; cases m1
        exact m2
      · obtain ⟨o', m1, -⟩ := hm i x k1
        rw [k2] at m1; cases m1
    cases h2 with
    | idle g1 g2 g3 g4 => exact fin (.inl g3)
    | opening g1 g2 g3 g4 g5 g6 => exact fin (by rw [g4]; exact .inl matched_nil)
    | gone ys x g1 g2 g3 g4 g5 => exact fin (.inr ⟨ys, x, g3, g4, g5⟩)
    | waiting c0 inputs d g1 g2 g3 g4 g5 g6 g7 g8 g9 g10 g11 g12 =>
      obtain ⟨l0, hl0, hm0⟩ := g6
      have hent : (ledger k.client.log).entries = (ledger c0.log).done ++ [⟨c0.request, d, none⟩] := by
        rw [hl0, (minors_entries hm0).1]; unfold Ledger.entries; rw [g10]; rfl
      have hm := matched_answers h1 g11 (by rw [hent]; exact List.prefix_append _ _)
      rw [hent]
      refine ⟨fun i x o k1 k2 => ?_, fun i x k1 k2 => ?_⟩
      · rcases Nat.lt_or_ge i (ledger c0.log).done.length with hl | hl
        · rw [List.getElem?_append_left hl] at k1
          obtain ⟨o', a, m1, m2⟩ := hm i x k1
          rw [k2] at m1; cases m1
          exact .inl ⟨a, m2⟩
        · rw [List.getElem?_append_right hl] at k1
          have : x = ⟨c0.request, d, none⟩ := by
            have := List.mem_of_getElem? k1
            simpa using this
          subst this; cases k2
      · rcases Nat.lt_or_ge i (ledger c0.log).done.length with hl | hl
        · rw [List.getElem?_append_left hl] at k1
          obtain ⟨o', a, m1, -⟩ := hm i x k1
          rw [k2] at m1; cases m1
        · have hi' := (List.getElem?_eq_some_iff.1 k1).1
          simp only [List.length_append, List.length_singleton] at hi' ⊢
          exact ⟨trivial, by omega, g7⟩

/-- **C82**, progress: when the server has completed as many responses as the client has written requests, and everything it has written has arrived, the request the client waits for ends, without error, if the
application takes the content that is there and returns to the event loop, again and again. -/
theorem C82_progress (env : ClientEnv) (fuel : Nat) (k : Link) (h : Linked env fuel k) (hp : k.client.responsePending = true) (hc : k.client.sock.state = .connected)
    (hall : completions (epoch k.server.c.log) = (said k.client.log).length) (harr : k.arrived = wireOf (epoch k.server.c.log)) (n : Nat) (hn : k.client.sock.rx.length ≤ n) :
    ∃ l₁ st hs ct l₂, (k.client.run env fuel (takings n)).log = k.client.log ++ l₁ ++ .finished .noError st hs ct :: l₂ := by
  obtain ⟨es, h1, h2, h3⟩ := (linked_inv h).now
  rw [h1.epoch] at hall harr
  cases h2 with
  | idle g1 => rw [hp] at g1; cases g1
  | opening g1 g2 => rw [hc] at g2; cases g2
  | gone ys x g1 => rw [g1.pending] at hp; cases hp
  | waiting c0 inputs d g1 g2 g3 g4 g5 g6 g7 g8 g9 g10 g11 g12 =>
    obtain ⟨l0, hl0, hm0⟩ := g6
    have hent : (ledger k.client.log).entries = (ledger c0.log).done ++ [⟨c0.request, d, none⟩] := by
      rw [hl0, (minors_entries hm0).1]; unfold Ledger.entries; rw [g10]; rfl
    rw [← (ledger_talk k.client.log).2] at hall
    rw [hent] at h1 hall
    have hlen : (pairs ((ledger c0.log).done ++ [(⟨c0.request, d, none⟩ : Entry)])).length = (ledger c0.log).done.length + 1 := by simp [Pair.pairs]
    have hcomps := (attached_base h1).comps
    have hfew := (attached_base h1).few
    have hq := attached_few h1
    rcases arrivals (n := (ledger c0.log).done.length) (r := c0.request) (d := d) (inputs := inputs) h1 hlen (by simp [Pair.pairs]) g11.len g4 (by rw [← g12]; exact h3) with
      ⟨-, hb⟩ | ⟨-, -, f, hf1, hf2, ⟨a0, ha1, ha2⟩, hevery⟩
    · exact absurd ⟨by omega, by rw [← g12]; exact harr⟩ hb
    · obtain ⟨interims, m, hpaced, -⟩ := hevery a0 ha1 ha2
      obtain ⟨hd, d1, d2, hal⟩ := paced_along (fuel := fuel) (env := env) g1 g2 g3 hpaced
      rw [← g5] at hal
      obtain ⟨hrep, -⟩ := along_rounds (fuel := fuel) d2 hpaced.final n hal hn
      obtain ⟨l1, ct, l2, all, e1, -⟩ := hrep
      have e1 : (k.client.run env fuel (takings n)).log = _ := e1
      have hpre : c0.log ++ l0 <+: c0.log ++ l1 ++ .finished .noError (num m.head.status) m.head.shown ct :: l2 := by
        rw [← hl0, ← e1]; exact run_log env fuel _ _
      obtain ⟨z, hz⟩ := prefix_before hpre (minors_no_finished hm0)
      exact ⟨z, num m.head.status, m.head.shown, ct, l2, by rw [e1, hl0, ← hz]; simp⟩

/-! ## Example -/

theorem serves_prefix {env : ClientEnv} {a b : List Ev} (h : Serves env b) (hp : a <+: b) : Serves env a :=
  ⟨fun x hx => h.status x (hp.subset hx), fun x hx => h.delimited x (hp.subset hx), fun x hx => h.chunks x (hp.subset hx), fun x hx => h.plain x (hp.subset hx), fun x hx => h.size x (hp.subset hx),
    fun x hx => h.plainly x (hp.subset hx)⟩

theorem epoch_grows {s s' : Conf} {l : Label} (hl : l ≠ .init) (h : s.step l = some s') : epoch s.c.log <+: epoch s'.c.log := by
  rcases step_one hl h with e | ⟨x, hx, e⟩
  · rw [e]; exact List.prefix_refl _
  · rw [e, epoch_snoc, if_neg hx]; exact List.prefix_append _ _

theorem epoch_run : ∀ {ls : List Label} {s s' : Conf}, .init ∉ ls → s.run ls = some s' → epoch s.c.log <+: epoch s'.c.log
  | [], s, s', _, h => by cases h; exact List.prefix_refl _
  | l :: ls, s, s', hl, h => by
    unfold Conf.run at h
    cases hs : s.step l with
    | none => rw [hs] at h; cases h
    | some t =>
      rw [hs] at h
      exact (epoch_grows (fun e => hl (by simp [e])) hs).trans (epoch_run (fun e => hl (by simp [e])) h)

/-- Several steps of the server. -/
theorem linked_run {env : ClientEnv} {fuel : Nat} : ∀ {ls : List Label} {k : Link} {s : Conf}, Linked env fuel k → k.server.run ls = some s → .init ∉ ls → received (epoch s.c.log) <+: spoken k.client.log →
    Serves env (epoch s.c.log) → Linked env fuel { k with server := s }
  | [], k, s, hk, h, _, _, _ => by cases h; exact hk
  | l :: ls, k, s, hk, h, hl, hr, hv => by
    unfold Conf.run at h
    cases hs : k.server.step l with
    | none => rw [hs] at h; cases h
    | some t =>
      rw [hs] at h
      have hp := epoch_run (fun e => hl (by simp [e])) h
      have hrp : received (epoch t.c.log) <+: received (epoch s.c.log) := by
        obtain ⟨x, hx⟩ := hp
        rw [← hx]
        exact ⟨received x, by simp [received]⟩
      exact linked_run (k := { k with server := t }) (.server l t hk hs (fun e => hl (by simp [e])) (hrp.trans hr) (serves_prefix hv hp)) h (fun e => hl (by simp [e])) hr hv

/-- A step of the client, with the mark it leaves. -/
theorem linked_client {env : ClientEnv} {fuel : Nat} {c : Client} {past : List Conf} {s : Conf} {arr : Bytes} {m : Nat} (i : CInput) (m' : Nat) (h : Linked env fuel ⟨c, past, s, arr, m⟩) (hq : Quietly env ⟨c, past, s, arr, m⟩ i)
    (hc : connects (c.step env fuel i).log = connects c.log) (hm : (if written (c.step env fuel i) = written c then m else arr.length) = m') (ha : ∀ q ∈ said (c.step env fuel i).log, Askable q.1) :
    Linked env fuel ⟨c.step env fuel i, past, s, arr, m'⟩ := by
  subst hm
  exact .client i h hq hc ha

theorem exists_of_run {s0 : Conf} {ls : List Label} {p : Conf → Bool} (h : (match s0.run ls with | some s => p s | none => false) = true) : ∃ s, s0.run ls = some s ∧ p s = true := by
  split at h
  · rename_i s hs; exact ⟨s, hs, h⟩
  · cases h

def demoServes (es : List Ev) : Bool := es.all fun
  | .head h => decide (h.status ∈ rfcCodes) && h.status != 100 && decide (0 ≤ h.len) && decide (h.len < 2147483648) && decide (h.bytes.length ≤ 80 * 1024 - 2) && (h.headers == [] || h.headers == [⟨b!"X-Y", b!"z"⟩])
  | .chunk _ => false
  | _ => true

theorem demoServes_serves {es : List Ev} (h : demoServes es = true) : Serves demoEnv es := by
  have hh : ∀ x, .head x ∈ es → (x.status ∈ rfcCodes ∧ x.status ≠ 100) ∧ (0 ≤ x.len ∧ x.len < 2147483648) ∧ x.bytes.length ≤ 80 * 1024 - 2 ∧ (x.headers = [] ∨ x.headers = [⟨b!"X-Y", b!"z"⟩]) := by
    intro x hx
    have := List.all_eq_true.1 h _ hx
    simp only [Bool.and_eq_true, decide_eq_true_eq, bne_iff_ne, Bool.or_eq_true, beq_iff_eq] at this
    obtain ⟨⟨⟨⟨⟨k1, k2⟩, k3⟩, k4⟩, k5⟩, k6⟩ := this
    exact ⟨⟨k1, k2⟩, ⟨k3, k4⟩, k5, k6⟩
  refine ⟨fun x hx => (hh x hx).1, fun x hx => .inl (hh x hx).2.1, fun bs hx => ?_, fun x hx y hy => ?_, fun x hx => (hh x hx).2.2.1, fun x hx => .inr rfl⟩
  · have := List.all_eq_true.1 h _ hx
    simp at this
  · rcases (hh x hx).2.2.2 with e | e <;> rw [e] at hy
    · cases hy
    · rw [List.mem_singleton.1 hy]; exact demo_plain

theorem demo_asks {log : List CEv} (h : ((said log).all fun q => decide (q.1 = demoReq b!"GET") || decide (q.1 = demoReq b!"HEAD")) = true) : ∀ q ∈ said log, Askable q.1 := by
  intro q hq
  have := List.all_eq_true.1 h q hq
  simp only [Bool.or_eq_true, decide_eq_true_eq] at this
  rcases this with e | e <;> rw [e]
  · exact demo_askable
  · exact demo_askable_head

def demoHeadWire : Bytes := b!"HEAD / HTTP/1.1\r\nHost: h\r\n\r\n"
def demoAnswer1 : Bytes := b!"HTTP/1.1 200 OK\r\nX-Y: z\r\nContent-Length: 5\r\nContent-Type: text/plain\r\n\r\nhello"
def demoAnswer2 : Bytes := b!"HTTP/1.1 404 Not Found\r\nContent-Length: 4\r\nContent-Type: text/plain\r\n\r\n"

/-- An application that takes the content as it comes, and asks for the head of the same resource as soon as it has got it. -/
def demoLink0 : Client := Client.new [] (List.replicate 9 [.consumeContent]) [[.request (demoReq b!"HEAD")]] []
def demoLink1 : Client := demoLink0.run demoEnv 2 [.call (.request (demoReq b!"GET"))]
def demoLink2 : Client := demoLink1.run demoEnv 2 [.connected]
def demoLink3 : Client := demoLink2.run demoEnv 2 [.arrive (demoAnswer1.take 74)]
def demoLink4 : Client := demoLink3.run demoEnv 2 [.readyRead]
def demoLink5 : Client := demoLink4.run demoEnv 2 [.arrive (demoAnswer1.drop 74)]
def demoLink6 : Client := demoLink5.run demoEnv 2 [.readyRead]
def demoLink7 : Client := demoLink6.run demoEnv 2 [.arrive demoAnswer2]
def demoLink8 : Client := demoLink7.run demoEnv 2 [.readyRead]
/-- The server closes the connection in the middle of the content. -/
def demoLost : Client := demoLink4.run demoEnv 2 [.error true]
/-- The application aborts before the client has read the answer. -/
def demoAborted : Client := demoLink3.run demoEnv 2 [.call .abort]

/-- A GET and a HEAD request, on the same connection: before and after the client reads the second answer. -/
theorem demo_linked : ∃ k, Linked demoEnv 2 k ∧ k.client = demoLink7 ∧ completions (epoch k.server.c.log) = 2 ∧ k.arrived = wireOf (epoch k.server.c.log) ∧ Linked demoEnv 2 { k with client := demoLink8 } ∧
    (∃ k', Linked demoEnv 2 k' ∧ k'.client = demoLost) ∧ ∃ k', Linked demoEnv 2 k' ∧ k'.client = demoAborted := by
  obtain ⟨s0, hs0, hp0⟩ := exists_of_run (s0 := {}) (ls := [.init]) (p := fun s => match s.run ([.recv (demoWire.take 9), .call .processInput] ++ taus 1 ++ [.recv (demoWire.drop 9), .call .processInput] ++
      taus 3 ++ [.call (.writeResponse 200 [⟨b!"X-Y", b!"z"⟩] b!"hello")] ++ taus 7 ++ [.ret, .tau 0, .tau 0, .ret, .tau 0, .tau 0, .ret]) with
    | some s1 => s.c.log == [.init] && received (epoch s1.c.log) == demoWire && demoServes (epoch s1.c.log) && wireOf (epoch s1.c.log) == demoAnswer1 &&
        (match s1.run ([.recv demoHeadWire, .call .processInput] ++ taus 3 ++ [.call (.writeResponse 404 [] b!"none")] ++ taus 4) with
        | some s2 => received (epoch s2.c.log) == demoWire ++ demoHeadWire && demoServes (epoch s2.c.log) && wireOf (epoch s2.c.log) == demoAnswer1 ++ demoAnswer2 && completions (epoch s2.c.log) == 2
        | none => false)
    | none => false) (by decide +kernel)
  obtain ⟨s1, hs1, hp1⟩ := exists_of_run hp0
  simp only [Bool.and_eq_true, beq_iff_eq] at hp1
  obtain ⟨⟨⟨⟨a1, a2⟩, a3⟩, a4⟩, a5⟩ := hp1
  obtain ⟨s2, hs2, hp2⟩ := exists_of_run a5
  simp only [Bool.and_eq_true, beq_iff_eq] at hp2
  obtain ⟨⟨⟨b1, b2⟩, b3⟩, b4⟩ := hp2
  have hblank : Blank s0 := by
    refine ⟨.step {} s0 .init .start (fun _ => ⟨rfl, .inl rfl⟩) ?_, [], a1⟩
    simpa [Conf.run] using hs0
  have k0 : Linked demoEnv 2 ⟨demoLink0, [], s0, [], 0⟩ := .start _ _ _ _ s0 (by intro l hl; cases hl) (by intro l hl hu; rw [List.eq_of_mem_replicate hl] at hu; simp at hu) (by intro x hx; cases hx) hblank
  have k1 : Linked demoEnv 2 ⟨demoLink1, [s0], s0, [], 0⟩ := .reconnect (.call (.request (demoReq b!"GET"))) s0 k0 ⟨by simp, show demoLink0.sock.unsent = false by decide +kernel, (fun h => absurd (show demoLink0.responsePending = true from h) (by decide +kernel))⟩
    (show connects demoLink1.log ≠ connects demoLink0.log by decide +kernel) (demo_asks (log := demoLink1.log) (by decide +kernel)) hblank
  have k2 : Linked demoEnv 2 ⟨demoLink2, [s0], s0, [], 0⟩ := linked_client .connected _ k1 ⟨by simp, trivial, fun _ => .inl trivial⟩
    (show connects demoLink2.log = connects demoLink1.log by decide +kernel) (show (if written demoLink2 = written demoLink1 then _ else _) = _ by decide +kernel) (demo_asks (log := demoLink2.log) (by decide +kernel))
  have k3 : Linked demoEnv 2 ⟨demoLink2, [s0], s1, [], 0⟩ := linked_run k2 hs1 (by decide) (by rw [a2, show spoken demoLink2.log = demoWire by decide +kernel]; exact List.prefix_refl _) (demoServes_serves a3)
  have k4 : Linked demoEnv 2 ⟨demoLink3, [s0], s1, demoAnswer1.take 74, 0⟩ := .down (demoAnswer1.take 74) k3 (by show _ <+: wireOf (epoch s1.c.log); rw [a4]; exact List.take_prefix _ _)
  have k5 : Linked demoEnv 2 ⟨demoLink4, [s0], s1, demoAnswer1.take 74, 0⟩ := linked_client .readyRead _ k4 ⟨by simp, show demoLink3.sock.unsent = false by decide +kernel, fun _ => .inl trivial⟩
    (show connects demoLink4.log = connects demoLink3.log by decide +kernel) (show (if written demoLink4 = written demoLink3 then _ else _) = _ by decide +kernel) (demo_asks (log := demoLink4.log) (by decide +kernel))
  have k6 : Linked demoEnv 2 ⟨demoLink5, [s0], s1, demoAnswer1.take 74 ++ demoAnswer1.drop 74, 0⟩ :=
    .down (demoAnswer1.drop 74) k5 (by show _ <+: wireOf (epoch s1.c.log); rw [a4]; rw [List.take_append_drop]; exact List.prefix_refl _)
  rw [List.take_append_drop] at k6
  have k7 : Linked demoEnv 2 ⟨demoLink6, [s0], s1, demoAnswer1, demoAnswer1.length⟩ := linked_client .readyRead _ k6 ⟨by simp, show demoLink5.sock.unsent = false by decide +kernel, fun _ => .inl trivial⟩
    (show connects demoLink6.log = connects demoLink5.log by decide +kernel) (show (if written demoLink6 = written demoLink5 then _ else _) = _ by decide +kernel) (demo_asks (log := demoLink6.log) (by decide +kernel))
  have k8 : Linked demoEnv 2 ⟨demoLink6, [s0], s2, demoAnswer1, demoAnswer1.length⟩ := linked_run k7 hs2 (by decide) (by rw [b1, show spoken demoLink6.log = demoWire ++ demoHeadWire by decide +kernel]; exact List.prefix_refl _) (demoServes_serves b2)
  have k9 : Linked demoEnv 2 ⟨demoLink7, [s0], s2, demoAnswer1 ++ demoAnswer2, demoAnswer1.length⟩ := .down demoAnswer2 k8 (by show _ <+: wireOf (epoch s2.c.log); rw [b3]; exact List.prefix_refl _)
  have k10 : Linked demoEnv 2 ⟨demoLink8, [s0], s2, demoAnswer1 ++ demoAnswer2, demoAnswer1.length⟩ := linked_client .readyRead _ k9 ⟨by simp, show demoLink7.sock.unsent = false by decide +kernel, fun _ => .inl trivial⟩
    (show connects demoLink8.log = connects demoLink7.log by decide +kernel) (show (if written demoLink8 = written demoLink7 then _ else _) = _ by decide +kernel) (demo_asks (log := demoLink8.log) (by decide +kernel))
  have k11 : Linked demoEnv 2 ⟨demoLost, [s0, s1], s0, [], 0⟩ := .reconnect (.error true) s0 k5
    ⟨by simp, show demoLink4.sock.unsent = false by decide +kernel, fun _ => .inr ⟨trivial, .inr ⟨[⟨b!"X-Y", b!"z"⟩, ⟨b!"Content-Length", b!"5"⟩, ⟨b!"Content-Type", b!"text/plain"⟩],
      show lastHead demoLink4.log = _ by decide +kernel, .inr rfl⟩, show .abort ∉ demoLink4.onFinished.headD [] by decide +kernel⟩⟩
    (show connects demoLost.log ≠ connects demoLink4.log by decide +kernel) (demo_asks (log := demoLost.log) (by decide +kernel)) hblank
  have k12 : Linked demoEnv 2 ⟨demoAborted, [s0, s1], s0, [], 0⟩ := .reconnect (.call .abort) s0 k4
    ⟨by simp, trivial, fun _ => .inr ⟨rfl, .inl (show (demoAnswer1.take 74).length ≤ 0 + demoLink3.sock.rx.length by decide +kernel), show .abort ∉ demoLink3.onFinished.headD [] by decide +kernel⟩⟩
    (show connects demoAborted.log ≠ connects demoLink3.log by decide +kernel) (demo_asks (log := demoAborted.log) (by decide +kernel)) hblank
  exact ⟨_, k9, rfl, b4, b3.symm, k10, ⟨_, k11, rfl⟩, ⟨_, k12, rfl⟩⟩

example : ∃ k, Linked demoEnv 2 k ∧ exchanges k.client.log =
    [[], [⟨demoReq b!"GET", demoWire, some ⟨.noError, 200, [⟨b!"X-Y", b!"z"⟩, ⟨b!"Content-Length", b!"5"⟩, ⟨b!"Content-Type", b!"text/plain"⟩], b!"hello"⟩⟩,
      ⟨demoReq b!"HEAD", demoHeadWire, some ⟨.noError, 404, [⟨b!"Content-Length", b!"4"⟩, ⟨b!"Content-Type", b!"text/plain"⟩], []⟩⟩]] ∧
    completions (epoch k.server.c.log) = 2 := by
  obtain ⟨k, h1, h2, h3, h4, h5⟩ := demo_linked
  exact ⟨_, h5.1, show exchanges demoLink8.log = _ by decide +kernel, h3⟩

/-- Failed in the middle of the content; the next request is on its way. -/
example : ∃ k, Linked demoEnv 2 k ∧ exchanges k.client.log =
    [[], [⟨demoReq b!"GET", demoWire, some ⟨.remoteHostClosed, 200, [⟨b!"X-Y", b!"z"⟩, ⟨b!"Content-Length", b!"5"⟩, ⟨b!"Content-Type", b!"text/plain"⟩], b!"he"⟩⟩], []] := by
  obtain ⟨k, h1, h2, h3, h4, h5, ⟨k', h6, h7⟩, h8⟩ := demo_linked
  exact ⟨k', h6, by rw [h7]; decide +kernel⟩

example : ∃ k, Linked demoEnv 2 k ∧ exchanges k.client.log = [[], [⟨demoReq b!"GET", demoWire, some ⟨.aborted, 0, [], []⟩⟩], []] := by
  obtain ⟨k, h1, h2, h3, h4, h5, h6, ⟨k', h7, h8⟩⟩ := demo_linked
  exact ⟨k', h7, by rw [h8]; decide +kernel⟩

example : ∃ k, Linked demoEnv 2 k ∧ k.client.responsePending = true ∧ k.client.sock.state = .connected ∧ completions (epoch k.server.c.log) = (said k.client.log).length ∧
    k.arrived = wireOf (epoch k.server.c.log) := by
  obtain ⟨k, h1, h2, h3, h4, h5⟩ := demo_linked
  exact ⟨k, h1, by rw [h2]; decide +kernel, by rw [h2]; decide +kernel, by rw [h2, h3]; decide +kernel, h4⟩

end Pillow.Props
