import Verif.Spec.Wire
import Verif.Props.RespFraming
import Verif.Props.Reuse
set_option linter.unusedSimpArgs false
set_option linter.unusedVariables false
/-!
# C99: all that a connection writes
-/
namespace Pillow.Props
open Pillow Pillow.Spec

theorem chunked_end (rest : Bytes) : Chunked (b!"0\r\n\r\n" ++ rest) [] rest := Chunked.last b!"0" rest (by decide +kernel)

/-- A response, as far as it has been written. -/
theorem reply_part (s : Conf) (hr : Reach Proper s) (a rest : List Ev) (h : RespHead) (r : ReqView) (e : s.c.log = a ++ .head h :: rest) (hreq : (readys a).getLast? = some r) (ho : ProperHead r h)
    (b : List Ev) (q : Phase) (hp : Path true (.begin r h) b q) (hne : NotEnded b) (hcl : ∀ bs, .chunk bs ∈ b → bs.length < 2147483648) :
    (∃ more, FullReply r (h.bytes ++ wireOf b ++ more) ∨ LastReply r (h.bytes ++ wireOf b ++ more)) ∧
    ((q = .ended r h ∨ ∃ n, q = .sending r h n ∧ h.len < 0 ∧ h.chunked = false) →
      FullReply r (h.bytes ++ wireOf b) ∨ (LastReply r (h.bytes ++ wireOf b) ∧ h.keepAlive = false)) := by
  obtain ⟨maj, min, hv⟩ := ho.version
  obtain ⟨H, g1, g2, g3, g4, g5, g6⟩ := head_grammar s hr a _ h e r hreq ho.status ho.length hv ho.headers ho.size
  obtain ⟨_, -, sp⟩ := head_in_log s hr a _ h e r hreq
  have hclen : h.chunked = true → h.len = -1 := fun k => (sp.chunked.1 k).2.1
  obtain ⟨w, hq⟩ := writing_path r h b hp hne
  have whole : ∀ {wire content : Bytes}, r.method ≠ b!"HEAD" → FollowedBy H wire content → FullReply r (h.bytes ++ wire) := fun hm hf =>
    ⟨H, _, _, g1, by rw [g2], fun k => absurd k hm, fun _ => hf⟩
  have done : FullReply r (h.bytes ++ wireOf b) → (∃ more, FullReply r (h.bytes ++ wireOf b ++ more) ∨ LastReply r (h.bytes ++ wireOf b ++ more)) ∧
    ((q = .ended r h ∨ ∃ n, q = .sending r h n ∧ h.len < 0 ∧ h.chunked = false) →
      FullReply r (h.bytes ++ wireOf b) ∨ (LastReply r (h.bytes ++ wireOf b) ∧ h.keepAlive = false)) := fun k => ⟨⟨[], .inl (by simpa using k)⟩, fun _ => .inl k⟩
  by_cases hm : r.method = b!"HEAD"
  · refine done ⟨H, [], [], g1, ?_, fun _ => rfl, fun k => absurd hm k⟩
    have : wireOf b = [] := by
      unfold wireOf
      rw [List.flatten_eq_nil_iff]
      intro x hx
      obtain ⟨y, hy, rfl⟩ := List.mem_map.1 hx
      obtain ⟨bs, rfl⟩ := w.head hm y hy
      rfl
    rw [this, g2]
  rcases Bool.eq_false_or_eq_true h.chunked with hch | hch
  · have hlen := hclen hch
    have hn : ¬ Spec.NoContent (num H.status) := by rw [g3]; intro k; have := ho.nothing k; omega
    obtain ⟨u, hu⟩ : ∃ u, H.codings.getLast? = some u := by
      obtain ⟨v, hv1, -⟩ := chunked_codings.1 (g5.2 hch)
      cases hlast : H.codings.getLast? with
      | none => rw [List.getLast?_eq_none_iff.1 hlast] at hv1; cases hv1
      | some u => exact ⟨u, rfl⟩
    have hsame : LastChunked u := .inl ⟨0, by simpa using (sent_codings g4 ho.codings (List.mem_of_getLast? hu)).2⟩
    have only : ∀ x ∈ b, (∃ bs, x = .recv bs) ∨ (∃ bs, x = .chunk bs ∧ bs.length < 2147483648) ∨ x = .lastChunk := fun x hx => by
      rcases w.only x hx with ⟨bs, rfl⟩ | ⟨bs, rfl, k⟩ | ⟨bs, rfl, k⟩ | ⟨rfl, k⟩
      · exact Or.inl ⟨bs, rfl⟩
      · rw [hch] at k; cases k
      · exact Or.inr (Or.inl ⟨bs, rfl, hcl bs hx⟩)
      · exact Or.inr (Or.inr rfl)
    rcases hq with ⟨q1, q2, q3, q4, q5, q6⟩ | ⟨q1, q2⟩
    · have hk := q5 hch _ _ [] (chunked_end [])
      have hbody : ChunkedBody (wireOf (b ++ [.lastChunk])) (contentOf b) := by
        refine chunked_body _ _ (fun x hx => ?_) ?_
        · rcases List.mem_append.1 hx with hx | hx
          · exact only x hx
          · exact Or.inr (Or.inr (List.mem_singleton.1 hx))
        · rw [wireOf_snoc]
          show Chunked (wireOf b ++ b!"0\r\n\r\n") _ _
          simpa using hk
      refine ⟨⟨b!"0\r\n\r\n", .inl ?_⟩, ?_⟩
      · rw [List.append_assoc]
        have := whole hm (.chunked _ _ u hn hu hsame hbody)
        rw [wireOf_snoc] at this
        exact this
      · rintro (k | ⟨n, -, -, k⟩)
        · rw [q1] at k; cases k
        · rw [hch] at k; cases k
    · rcases q2 with k | k | ⟨-, k⟩
      · exact absurd k hm
      · omega
      · exact done (whole hm (.chunked _ _ u hn hu hsame (chunked_body _ _ only (by simpa using k []))))
  · have hwire : wireOf b = contentOf b := by
      have := plain_wire (r := r) (h := h) b w.only hch
      simpa [wireOf, Ev.wire] using this
    have hcod : H.codings = [] := by
      cases hc : H.codings with
      | nil => rfl
      | cons v t =>
        have := (sent_codings g4 ho.codings (v := v) (by rw [hc]; simp)).1
        rw [hch] at this; cases this
    by_cases hlen : h.len = -1
    · have hn : ¬ Spec.NoContent (num H.status) := by rw [g3]; intro k; have := ho.nothing k; omega
      have hlens : H.lengths = [] := by
        cases hc : H.lengths with
        | nil => rfl
        | cons v t =>
          have := sent_lengths_eq g4 (v := v) (by rw [hc]; simp)
          rw [if_pos hlen] at this; cases this
      have hl : LastReply r (h.bytes ++ wireOf b) := ⟨H, _, g1, by rw [g2], hm, hn, ⟨fun v k => (by rw [hcod] at k; cases k), fun _ => hlens⟩⟩
      refine ⟨⟨[], .inr (by simpa using hl)⟩, fun _ => .inr ⟨hl, ?_⟩⟩
      cases hk : h.keepAlive with
      | false => rfl
      | true =>
        rcases (sp.keepAlive.1 hk).2.1 with h | h
        · omega
        · rw [hch] at h; cases h
    · have hlen0 : 0 ≤ h.len := by have := ho.length; omega
      have hbound := w.bound hlen0
      rw [if_neg hlen] at g4 g6
      have follow : ∀ content : Bytes, (content.length : Int) = h.len → FollowedBy H content content := fun content hc => by
        by_cases hn : Spec.NoContent (num H.status)
        · have := ho.nothing (by rw [← g3]; exact hn)
          have : content = [] := List.eq_nil_of_length_eq_zero (by omega)
          rw [this]
          exact .nothing hn
        · refine .sized _ hn hcod (fun k => ?_) fun v hv => ?_
          · unfold RHead.announced at g6
            rw [k] at g6
            cases g6
          · have := sent_lengths_eq g4 hv
            simp only [Option.map_some, Option.some.injEq] at this
            rw [← this, readNat_digits 10 (by decide) (by decide), ← hc]
            rfl
      rw [hwire]
      refine ⟨⟨List.replicate (h.len.toNat - (contentOf b).length) 0, .inl ?_⟩, fun hf => .inl (whole hm (follow _ ?_))⟩
      · rw [List.append_assoc]
        refine whole hm (follow _ ?_)
        rw [List.length_append, List.length_replicate]
        omega
      · rcases hq with ⟨q1, -⟩ | ⟨-, k | k | ⟨k, -⟩⟩
        · rcases hf with k | ⟨n, -, k, -⟩
          · rw [q1] at k; cases k
          · omega
        · exact absurd k hm
        · exact k.symm
        · rw [hch] at k; cases k

/-- What is known of a log after which the handler has the request `r`. -/
structure AtBusy (log : List Ev) (r : ReqView) (rs : List ReqView) (w i : Bytes) : Prop where
  answered : AllAnswered rs w
  before : Before r i
  requests : readys (epoch log) = rs ++ [r]
  completed : completions (epoch log) = rs.length
  wire : wireOf (epoch log) = w ++ i
  last : (readys log).getLast? = some r

def Payload (e : Ev) : Prop := (∃ bs, e = .recv bs) ∨ (∃ bs, e = .body bs) ∨ (∃ bs, e = .chunk bs) ∨ e = .lastChunk

def Inv (log : List Ev) : Phase → Prop
  | .off => readys (epoch log) = [] ∧ wireOf (epoch log) = [] ∧ completions (epoch log) = 0
  | .recv i => ∃ w, AllAnswered (readys (epoch log)) w ∧ completions (epoch log) = (readys (epoch log)).length ∧ wireOf (epoch log) = w ++ (if i then b!"HTTP/1.1 100 Continue\r\n\r\n" else [])
  | .busy r => ∃ rs w i, AtBusy log r rs w i
  | .sending r h n => ∃ a b rs w i, log = a ++ .head h :: b ∧ AtBusy a r rs w i ∧ (∀ e ∈ b, Payload e) ∧ Path true (.begin r h) b (.sending r h n)
  | .ended r h => ∃ a b rs w i, log = a ++ .head h :: b ∧ AtBusy a r rs w i ∧ (∀ e ∈ b, Payload e) ∧ Path true (.begin r h) b (.ended r h)
  | .flushing => Stands (readys (epoch log)) (completions (epoch log)) (wireOf (epoch log))
  | .closed => Stands (readys (epoch log)) (completions (epoch log)) (wireOf (epoch log))

theorem epoch_append (a b : List Ev) (h : .init ∉ b) : epoch (a ++ b) = epoch a ++ b := by
  unfold epoch
  rw [List.foldl_append, epoch_fold b _ h]

theorem completions_append (a b : List Ev) : completions (a ++ b) = completions a + completions b := by
  unfold completions
  rw [List.filter_append, List.length_append]

theorem wireOf_append_ (a b : List Ev) : wireOf (a ++ b) = wireOf a ++ wireOf b := by unfold wireOf; rw [List.map_append, List.flatten_append]

theorem wireOf_cons_ (e : Ev) (b : List Ev) : wireOf (e :: b) = e.wire ++ wireOf b := rfl

theorem readys_append' (a b : List Ev) : readys (a ++ b) = readys a ++ readys b := by unfold readys; rw [List.filterMap_append]

theorem content_plain {b : List Ev} (h : ∀ e ∈ b, Payload e) : readys b = [] ∧ completions b = 0 ∧ .init ∉ b ∧ NotEnded b := by
  refine ⟨?_, ?_, fun k => ?_, fun e he => ?_⟩
  · unfold readys
    rw [List.filterMap_eq_nil_iff]
    intro e he
    rcases h e he with ⟨_, rfl⟩ | ⟨_, rfl⟩ | ⟨_, rfl⟩ | rfl <;> rfl
  · unfold completions
    rw [List.length_eq_zero_iff, List.filter_eq_nil_iff]
    intro e he
    rcases h e he with ⟨_, rfl⟩ | ⟨_, rfl⟩ | ⟨_, rfl⟩ | rfl <;> simp
  · rcases h _ k with ⟨_, k⟩ | ⟨_, k⟩ | ⟨_, k⟩ | k <;> cases k
  · rcases h e he with ⟨_, rfl⟩ | ⟨_, rfl⟩ | ⟨_, rfl⟩ | rfl <;> simp

/-- A log that goes on with a head and content. -/
theorem begun_shape {a b : List Ev} {h : RespHead} {r : ReqView} {rs : List ReqView} {w i : Bytes} (k : AtBusy a r rs w i) (hb : ∀ e ∈ b, Payload e) :
    readys (epoch (a ++ .head h :: b)) = rs ++ [r] ∧ completions (epoch (a ++ .head h :: b)) = rs.length ∧ wireOf (epoch (a ++ .head h :: b)) = w ++ i ++ (h.bytes ++ wireOf b) ∧
    epoch (a ++ .head h :: b) = epoch a ++ .head h :: b := by
  obtain ⟨h1, h2, h3, -⟩ := content_plain hb
  have hi : Ev.init ∉ Ev.head h :: b := by simp [h3]
  rw [epoch_append _ _ hi]
  refine ⟨?_, ?_, ?_, rfl⟩
  · rw [readys_append', k.requests]
    show (rs ++ [r]) ++ (List.filterMap Ev.request (.head h :: b)) = _
    rw [List.filterMap_cons]
    show (rs ++ [r]) ++ readys b = _
    rw [h1, List.append_nil]
  · rw [completions_append, k.completed]
    have : completions (.head h :: b) = completions b := by unfold completions; rw [List.filter_cons_of_neg (by simp)]
    rw [this, h2]; rfl
  · rw [wireOf_append_, k.wire, wireOf_cons_]; rfl

section
variable {s : Conf} (hr : Reach Proper s) (ho : ∀ a h rest r, s.c.log = a ++ .head h :: rest → (readys a).getLast? = some r → ProperHead r h) (hcl : ∀ bs, .chunk bs ∈ s.c.log → bs.length < 2147483648)
include hr ho hcl

theorem part_stands {a b rest : List Ev} {h : RespHead} {r : ReqView} {rs : List ReqView} {w i : Bytes} {q : Phase} (e : s.c.log = a ++ .head h :: b ++ rest) (k : AtBusy a r rs w i) (hb : ∀ e ∈ b, Payload e)
    (hp : Path true (.begin r h) b q) :
    Stands (readys (epoch (a ++ .head h :: b))) (completions (epoch (a ++ .head h :: b))) (wireOf (epoch (a ++ .head h :: b))) ∧
    ((q = .ended r h ∨ ∃ n, q = .sending r h n ∧ h.len < 0 ∧ h.chunked = false) →
      FullReply r (h.bytes ++ wireOf b) ∨ (LastReply r (h.bytes ++ wireOf b) ∧ h.keepAlive = false)) := by
  obtain ⟨h1, h2, h3, -⟩ := begun_shape k hb
  rw [h1, h2, h3]
  have e' := e
  rw [List.append_assoc, List.cons_append] at e'
  obtain ⟨⟨more, hm⟩, hf⟩ := reply_part s hr a _ h r e' k.last (ho a h _ r e' k.last) b q hp (content_plain hb).2.2.2 fun bs hbs => hcl bs (by rw [e]; simp [hbs])
  exact ⟨.begun r i (h.bytes ++ wireOf b) more k.answered k.before hm, hf⟩

theorem inv_stands {log rest : List Ev} {ph : Phase} (e : s.c.log = log ++ rest) (h : Inv log ph) : Stands (readys (epoch log)) (completions (epoch log)) (wireOf (epoch log)) := by
  cases ph with
  | off =>
    obtain ⟨h1, h2, h3⟩ := h
    rw [h1, h2, h3]
    exact .idle .none
  | recv i =>
    obtain ⟨w, h1, h2, h3⟩ := h
    rw [h2, h3]
    cases i with
    | true => exact .interim h1
    | false => rw [if_neg (by simp), List.append_nil]; exact .idle h1
  | busy r =>
    obtain ⟨rs, w, i, k⟩ := h
    rw [k.requests, k.completed, k.wire]
    exact .busy r i k.answered k.before
  | sending r hd n =>
    obtain ⟨a, b, rs, w, i, rfl, k, hb, hp⟩ := h
    exact (part_stands hr ho hcl e k hb hp).1
  | ended r hd =>
    obtain ⟨a, b, rs, w, i, rfl, k, hb, hp⟩ := h
    exact (part_stands hr ho hcl e k hb hp).1
  | flushing => exact h
  | closed => exact h

/-- A response is complete. -/
theorem completed_inv {a b rest : List Ev} {h : RespHead} {r : ReqView} {rs : List ReqView} {w i : Bytes} {q : Phase} (e : s.c.log = (a ++ .head h :: b) ++ [.completed] ++ rest) (k : AtBusy a r rs w i) (hb : ∀ e ∈ b, Payload e)
    (hp : Path true (.begin r h) b q) (hq : q = .ended r h ∨ ∃ n, q = .sending r h n ∧ h.len < 0 ∧ h.chunked = false) :
    Inv ((a ++ .head h :: b) ++ [.completed]) (.after h) := by
  obtain ⟨h1, h2, h3, -⟩ := begun_shape (h := h) k hb
  rw [List.append_assoc] at e
  have hf := (part_stands hr ho hcl e k hb hp).2 hq
  have es : epoch ((a ++ .head h :: b) ++ [.completed]) = epoch (a ++ .head h :: b) ++ [.completed] := by rw [epoch_snoc, if_neg (by simp)]
  have k1 : readys (epoch ((a ++ .head h :: b) ++ [.completed])) = rs ++ [r] := by rw [es, readys_snoc, h1]; simp [Ev.request]
  have k2 : completions (epoch ((a ++ .head h :: b) ++ [.completed])) = rs.length + 1 := by rw [es, completions_append, h2]; simp [completions]
  have k3 : wireOf (epoch ((a ++ .head h :: b) ++ [.completed])) = w ++ i ++ (h.bytes ++ wireOf b) := by rw [es, wireOf_snoc, h3]; simp [Ev.wire]
  have hlen : (rs ++ [r]).length = rs.length + 1 := by simp
  unfold Phase.after
  split
  · rename_i hk
    rcases hf with hf | ⟨-, hf⟩
    · refine ⟨w ++ i ++ (h.bytes ++ wireOf b), ?_, by rw [k1, k2, hlen], by rw [k3]; simp⟩
      rw [k1]
      exact .more r i _ k.answered k.before hf
    · rw [hk] at hf; cases hf
  · show Stands _ _ _
    rw [k1, k2, k3]
    rcases hf with hf | ⟨hf, -⟩
    · rw [← hlen]
      exact .idle (.more r i _ k.answered k.before hf)
    · exact .last r i _ k.answered k.before hf

theorem runs_inv : ∀ {log : List Ev} {ph : Phase}, Runs true log ph → ∀ rest, s.c.log = log ++ rest → Inv log ph := by
  intro log ph h
  induction h with
  | start => intro _ _; exact ⟨rfl, rfl, rfl⟩
  | step log p p' ev _ hn ih =>
    intro rest e
    have e1 : s.c.log = log ++ ([ev] ++ rest) := by rw [e, List.append_assoc]
    have hi := ih _ e1
    have hs := inv_stands hr ho hcl e1 hi
    have quiet : ev ≠ .init → Ev.request ev = none → ev.wire = [] → ev ≠ .completed →
        readys (epoch (log ++ [ev])) = readys (epoch log) ∧ completions (epoch (log ++ [ev])) = completions (epoch log) ∧ wireOf (epoch (log ++ [ev])) = wireOf (epoch log) := fun q1 q2 q3 q4 => by
      rw [epoch_snoc, if_neg q1]
      refine ⟨by rw [readys_snoc, q2]; simp, ?_, by rw [wireOf_snoc, q3, List.append_nil]⟩
      rw [completions_append]
      simp [completions, q4]
    have grow : ∀ {h : RespHead} {r : ReqView} {q q' : Phase}, Payload ev → (∃ a b rs w i, log = a ++ .head h :: b ∧ AtBusy a r rs w i ∧ (∀ e ∈ b, Payload e) ∧ Path true (.begin r h) b q) → Next true q ev q' →
        ∃ a b rs w i, log ++ [ev] = a ++ .head h :: b ∧ AtBusy a r rs w i ∧ (∀ e ∈ b, Payload e) ∧ Path true (.begin r h) b q' := by
      rintro h r q q' hc ⟨a, b, rs, w, i, rfl, k, hb, hp⟩ hn
      refine ⟨a, b ++ [ev], rs, w, i, by simp, k, fun x hx => ?_, hp.snoc hn⟩
      rcases List.mem_append.1 hx with hx | hx
      · exact hb x hx
      · rw [List.mem_singleton.1 hx]; exact hc
    cases hn with
    | init _ hp =>
      refine ⟨[], ?_, ?_, ?_⟩ <;> rw [epoch_snoc, if_pos rfl]
      · exact .none
      · rfl
      · rfl
    | recv _ bs =>
      obtain ⟨q1, q2, q3⟩ := quiet (by simp) rfl rfl (by simp)
      cases p with
      | off => obtain ⟨h1, h2, h3⟩ := hi; exact ⟨by rw [q1, h1], by rw [q3, h2], by rw [q2, h3]⟩
      | recv i => obtain ⟨w, h1, h2, h3⟩ := hi; exact ⟨w, by rw [q1]; exact h1, by rw [q1, q2, h2], by rw [q3, h3]⟩
      | busy r =>
        obtain ⟨rs, w, i, k⟩ := hi
        exact ⟨rs, w, i, k.answered, k.before, by rw [q1, k.requests], by rw [q2, k.completed], by rw [q3, k.wire], by rw [readys_snoc]; simpa [Ev.request] using k.last⟩
      | sending r hd n => exact grow (.inl ⟨bs, rfl⟩) hi (.recv _ bs)
      | ended r hd => exact grow (.inl ⟨bs, rfl⟩) hi (.recv _ bs)
      | flushing => show Stands _ _ _; rw [q1, q2, q3]; exact hi
      | closed => show Stands _ _ _; rw [q1, q2, q3]; exact hi
    | interim =>
      obtain ⟨w, h1, h2, h3⟩ := hi
      have e2 : epoch (log ++ [.interim]) = epoch log ++ [.interim] := by rw [epoch_snoc, if_neg (by simp)]
      have e3 : readys (epoch (log ++ [.interim])) = readys (epoch log) := by rw [e2, readys_snoc]; simp [Ev.request]
      refine ⟨w, by rw [e3]; exact h1, ?_, ?_⟩
      · rw [e3, e2, completions_append, h2]; simp [completions]
      · rw [e2, wireOf_snoc, h3]; simp [Ev.wire, continueBytes]
    | ready i r hw =>
      obtain ⟨w, h1, h2, h3⟩ := hi
      have e2 : epoch (log ++ [.ready r]) = epoch log ++ [.ready r] := by rw [epoch_snoc, if_neg (by simp)]
      refine ⟨readys (epoch log), w, _, h1, ?_, by rw [e2, readys_snoc]; rfl, by rw [e2, completions_append, h2]; simp [completions], by rw [e2, wireOf_snoc, h3]; simp [Ev.wire]; rfl, by rw [readys_snoc]; simp [Ev.request]⟩
      cases i with
      | true => exact .inl ⟨hw.1 rfl, rfl⟩
      | false => exact .inr ⟨fun k => (nomatch hw.2 k), rfl⟩
    | error code =>
      obtain ⟨w, h1, h2, h3⟩ := hi
      have e2 : epoch (log ++ [.errorReply code]) = epoch log ++ [.errorReply code] := by rw [epoch_snoc, if_neg (by simp)]
      have e3 : readys (epoch (log ++ [.errorReply code])) = readys (epoch log) := by rw [e2, readys_snoc]; simp [Ev.request]
      have e4 : completions (epoch (log ++ [.errorReply code])) = (readys (epoch log)).length := by rw [e2, completions_append, h2]; simp [completions]
      have e5 : wireOf (epoch (log ++ [.errorReply code])) = w ++ errorReplyBytes code := by rw [e2, wireOf_snoc, h3]; simp [Ev.wire]
      show Stands _ _ _
      rw [e3, e4, e5]
      exact .refused code h1
    | head r h hh =>
      obtain ⟨rs, w, i, k⟩ := hi
      have key : ∀ q, Phase.begin r h = q → ∃ a b rs w i, log ++ [.head h] = a ++ .head h :: b ∧ AtBusy a r rs w i ∧ (∀ e ∈ b, Payload e) ∧ Path true (.begin r h) b q :=
        fun q hq => ⟨log, [], rs, w, i, rfl, k, by simp, hq ▸ .nil _⟩
      show Inv _ (Phase.begin r h)
      cases hq : Phase.begin r h with
      | ended r' h' =>
        have := key _ hq
        unfold Phase.begin at hq
        split at hq <;> cases hq
        exact this
      | sending r' h' n' =>
        have := key _ hq
        unfold Phase.begin at hq
        split at hq <;> cases hq
        exact this
      | off => unfold Phase.begin at hq; split at hq <;> cases hq
      | recv => unfold Phase.begin at hq; split at hq <;> cases hq
      | busy => unfold Phase.begin at hq; split at hq <;> cases hq
      | flushing => unfold Phase.begin at hq; split at hq <;> cases hq
      | closed => unfold Phase.begin at hq; split at hq <;> cases hq
    | body r h n bs a1 a2 a3 a4 a5 =>
      have := grow (.inr (.inl ⟨bs, rfl⟩)) hi (.body r h n bs a1 a2 a3 a4 a5)
      split
      · rename_i hc; rw [if_pos hc] at this; exact this
      · rename_i hc; rw [if_neg hc] at this; exact this
    | chunk r h n bs a1 a2 a3 a4 => exact grow (.inr (.inr (.inl ⟨bs, rfl⟩))) hi (.chunk r h n bs a1 a2 a3 a4)
    | lastChunk r h n a1 a2 => exact grow (.inr (.inr (.inr rfl))) hi (.lastChunk r h n a1 a2)
    | completed r h =>
      obtain ⟨a, b, rs, w, i, rfl, k, hb, hp⟩ := hi
      exact completed_inv hr ho hcl e k hb hp (.inl rfl)
    | completedOpen r h n a1 a2 a3 =>
      obtain ⟨a, b, rs, w, i, rfl, k, hb, hp⟩ := hi
      exact completed_inv hr ho hcl e k hb hp (.inr ⟨n, rfl, a1, a2⟩)
    | forced _ u a1 a2 =>
      obtain ⟨q1, q2, q3⟩ := quiet (by simp) rfl rfl (by simp)
      show Stands _ _ _; rw [q1, q2, q3]; exact hs
    | drained =>
      obtain ⟨q1, q2, q3⟩ := quiet (by simp) rfl rfl (by simp)
      show Stands _ _ _; rw [q1, q2, q3]; exact hs
    | again _ =>
      obtain ⟨q1, q2, q3⟩ := quiet (by simp) rfl rfl (by simp)
      show Stands _ _ _; rw [q1, q2, q3]; exact hs

end

/-- **C99**: all that a connection has written since it was initialized is the responses to the requests it handed out, in order, whole as the standard reads them, one for each `requestCompleted()`, with
nothing before, between or after them but interim responses that were asked for; then at most a beginning of the response to the last request, or the response that ends with the connection, or an error reply
to what came instead of a request. (If every head written is orderly.) -/
theorem C99_wire_partial (s : Conf) (hr : Reach Proper s) (ho : ∀ a h rest r, s.c.log = a ++ .head h :: rest → (readys a).getLast? = some r → ProperHead r h)
    (hcl : ∀ bs, .chunk bs ∈ s.c.log → bs.length < 2147483648) :
    Stands (readys (epoch s.c.log)) (completions (epoch s.c.log)) (wireOf (epoch s.c.log)) := by
  obtain ⟨-, ph, hruns⟩ := reach_log hr
  exact inv_stands hr ho hcl (rest := []) (by simp) (runs_inv hr ho hcl hruns [] (by simp))

/-- Every head of a log with the request it answers. -/
def answers : Option ReqView → List Ev → List (ReqView × RespHead)
  | _, [] => []
  | _, .ready r :: es => answers (some r) es
  | o, .head h :: es => (match o with | some r => [(r, h)] | none => []) ++ answers o es
  | o, _ :: es => answers o es

theorem answers_mem (h : RespHead) (r : ReqView) (rest : List Ev) : ∀ (a : List Ev) (o : Option ReqView), ((readys a).getLast?.or o) = some r → (r, h) ∈ answers o (a ++ .head h :: rest)
  | [], o, e => by
    have : o = some r := by simpa [readys] using e
    subst this
    simp [answers]
  | ev :: a, o, e => by
    cases ev with
    | ready x =>
      refine answers_mem h r rest a (some x) ?_
      have hx : readys (.ready x :: a) = x :: readys a := rfl
      rw [hx, List.getLast?_cons] at e
      cases hl : (readys a).getLast? with
      | none => rw [hl] at e; simpa using e
      | some y => rw [hl] at e; simpa using e
    | head _ => exact List.mem_append_right _ (answers_mem h r rest a o e)
    | init | recv _ | interim | body _ | chunk _ | lastChunk | errorReply _ | completed | closed _ _ => exact answers_mem h r rest a o e

/-- The hypotheses are met by a connection that answered one request and is answering another, which asked for an interim response, with a response that ends with the connection. -/
example : ∃ s, Reach Proper s ∧ (∀ a h rest r, s.c.log = a ++ .head h :: rest → (readys a).getLast? = some r → ProperHead r h) ∧ (∀ bs, .chunk bs ∈ s.c.log → bs.length < 2147483648) ∧
    (readys (epoch s.c.log)).length = 2 ∧ completions (epoch s.c.log) = 1 ∧
    wireOf (epoch s.c.log) = b!"HTTP/1.1 200 OK\r\nX-Y: z\r\nContent-Length: 5\r\nContent-Type: text/plain\r\n\r\nhelloHTTP/1.1 100 Continue\r\n\r\nHTTP/1.1 200 OK\r\nX-Y: z\r\nConnection: close\r\n\r\nabc" := by
  obtain ⟨t, h1, h2⟩ := exists_of_endsIn (allowed := Proper)
    (ls := [.init, .recv b!"GET /a HTTP/1.1\r\n\r\n", .call .processInput] ++ taus 3 ++ [.call (.writeResponse 200 [⟨b!"X-Y", b!"z"⟩] b!"hello")] ++ taus 7 ++ [.ret] ++ taus 2 ++ [.ret] ++ taus 2 ++
      [.ret, .recv b!"POST /b HTTP/1.1\r\nContent-Length: 2\r\nExpect: 100-continue\r\n\r\n", .call .processInput] ++ taus 3 ++ [.recv b!"hi", .call .processInput] ++ taus 2 ++
      [.call (.writeHeaders 200 [⟨b!"X-Y", b!"z"⟩])] ++ taus 3 ++ [.call (.writeContent b!"abc")] ++ taus 1)
    (p := fun s => (answers none s.c.log).all (fun x => x.1.version == b!"HTTP/1.1" && x.2.status == 200 && (x.2.len == 5 || x.2.len == -1) && x.2.headers == [⟨b!"X-Y", b!"z"⟩] && decide (x.2.bytes.length < 200)) &&
      (s.c.log.all fun e => match e with | .chunk _ => false | _ => true) && (readys (epoch s.c.log)).length == 2 && completions (epoch s.c.log) == 1 &&
      wireOf (epoch s.c.log) == b!"HTTP/1.1 200 OK\r\nX-Y: z\r\nContent-Length: 5\r\nContent-Type: text/plain\r\n\r\nhelloHTTP/1.1 100 Continue\r\n\r\nHTTP/1.1 200 OK\r\nX-Y: z\r\nConnection: close\r\n\r\nabc")
    (by decide +kernel)
  simp only [Bool.and_eq_true, beq_iff_eq, List.all_eq_true, decide_eq_true_eq, Bool.or_eq_true] at h2
  obtain ⟨⟨⟨⟨k1, k2⟩, k3⟩, k4⟩, k5⟩ := h2
  refine ⟨t, h1, fun a h rest r e hr => ?_, fun bs hb => (nomatch k2 _ hb), k3, k4, k5⟩
  have hm := answers_mem h r rest a none (by rw [hr]; rfl)
  rw [← e] at hm
  obtain ⟨⟨⟨⟨q1, q2⟩, q3⟩, q4⟩, q5⟩ := k1 _ hm
  refine ⟨by rw [q2]; decide, by rcases q3 with q | q <;> rw [q] <;> decide, ⟨b!"1", b!"1", by rw [q1]; rfl, ⟨1, by decide +kernel, by decide⟩, ⟨1, by decide +kernel, by decide⟩⟩, ?_, ?_, by simp only at q5; omega, ?_⟩
  · rw [q4]; intro x hx; simp only [List.mem_singleton] at hx; subst hx; exact demo_plain
  · rw [q4]; intro t ht; have hn : lastHeader [⟨b!"X-Y", b!"z"⟩] b!"transfer-encoding" = none := by decide +kernel
    rw [hn] at ht; cases ht
  · rw [q2]; intro hn; exact absurd hn (by decide)

end Pillow.Props
