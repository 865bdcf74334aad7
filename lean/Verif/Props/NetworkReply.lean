import Verif.Spec.NetworkReply
import Verif.Props.ClientReply
import Verif.Lemmas.ClientEager
/-!
# C46, C47: reading replies, and sharing clients
-/
namespace Pillow.Props
open Pillow Pillow.Spec

/-! ## C46 -/

/-- What has not been read yet. -/
def _root_.Pillow.NReply.rest (r : NReply) : Bytes := r.pushed ++ r.content.drop r.pos

theorem read_rest (r : NReply) (n : Nat) (ho : r.isOpen = true) : (r.read n).1 = r.rest.take n ∧ (r.read n).2.rest = r.rest.drop n ∧ (r.read n).2.isOpen = true ∧ (r.pos ≤ r.content.length → (r.read n).2.pos ≤ (r.read n).2.content.length) := by
  unfold NReply.read NReply.rest
  rw [if_neg (by simp [ho])]
  dsimp only
  by_cases h : (r.pushed.take n).length < n
  · rw [if_pos h]
    have hl : r.pushed.length < n := by
      rw [List.length_take] at h
      omega
    have e1 : r.pushed.take n = r.pushed := List.take_of_length_le (by omega)
    have e2 : r.pushed.drop n = [] := List.drop_of_length_le (by omega)
    rw [e1, e2]
    unfold NReply.readData
    dsimp only
    by_cases hp : r.pos ≥ r.content.length
    · rw [if_pos hp]
      have e3 : r.content.drop r.pos = [] := List.drop_of_length_le hp
      simp [e3, e1, e2, ho, hp]
    · rw [if_neg hp]
      have hm : min (n - r.pushed.length) (r.content.length - r.pos) = min (n - r.pushed.length) (r.content.drop r.pos).length := by rw [List.length_drop]
      refine ⟨?_, ?_, ho, fun _ => ?_⟩
      · dsimp only [Option.getD_some]
        rw [List.take_append, e1, hm, ← List.take_take, List.take_length]
      · dsimp only
        rw [List.drop_append, e2, List.nil_append, List.drop_drop]
        by_cases hle : n - r.pushed.length ≤ r.content.length - r.pos
        · rw [Nat.min_eq_left hle, List.nil_append]
        · rw [Nat.min_eq_right (by omega), List.drop_of_length_le (by omega), List.drop_of_length_le (by omega)]
          rfl
      · dsimp only
        omega
  · rw [if_neg h]
    have hl : n ≤ r.pushed.length := by
      rw [List.length_take] at h
      omega
    refine ⟨?_, ?_, ho, id⟩
    · rw [List.take_append_of_le_length hl]
    · rw [List.drop_append_of_le_length hl]

theorem rest_length (r : NReply) (h : r.pos ≤ r.content.length) : (r.rest.length : Int) = r.bytesAvailable := by
  unfold NReply.rest NReply.bytesAvailable
  rw [List.length_append, List.length_drop]
  omega

theorem readAll_rest (r : NReply) (ho : r.isOpen = true) (h : r.pos ≤ r.content.length) : r.readAll.1 = r.rest ∧ r.readAll.2.rest = [] ∧ r.readAll.2.isOpen = true ∧ r.readAll.2.pos ≤ r.readAll.2.content.length := by
  unfold NReply.readAll
  dsimp only
  obtain ⟨a1, a2, a3, a4⟩ := read_rest r (r.pushed.length + r.content.length) ho
  have hl : r.rest.length ≤ r.pushed.length + r.content.length := by
    unfold NReply.rest
    rw [List.length_append, List.length_drop]
    omega
  rw [List.take_of_length_le hl] at a1
  rw [List.drop_of_length_le hl] at a2
  generalize r.read (r.pushed.length + r.content.length) = a at a1 a2 a3 a4 ⊢
  obtain ⟨b1, b2, b3, b4⟩ := read_rest a.2 16384 a3
  rw [a2] at b1 b2
  exact ⟨by rw [a1, b1, List.take_nil, List.append_nil], by rw [b2, List.drop_nil], b3, b4 (a4 h)⟩

theorem peek_rest (r : NReply) (n : Nat) (ho : r.isOpen = true) (h : r.pos ≤ r.content.length) : (r.peek n).1 = r.rest.take n ∧ (r.peek n).2.rest = r.rest ∧ (r.peek n).2.isOpen = true ∧ (r.peek n).2.pos ≤ (r.peek n).2.content.length := by
  unfold NReply.peek
  dsimp only
  obtain ⟨a1, a2, a3, a4⟩ := read_rest r n ho
  refine ⟨a1, ?_, a3, a4 h⟩
  unfold NReply.rest at a2 ⊢
  dsimp only
  rw [List.append_assoc, a2, a1]
  exact List.take_append_drop n _

/-- A reply that was told about the headers at most once. -/
structure Reading (r : NReply) (opened : Bool) (read all : Bytes) : Prop where
  isOpen : r.isOpen = opened
  closed : opened = false → r.pushed = [] ∧ r.pos = 0 ∧ read = []
  pos : r.pos ≤ r.content.length
  rest : read ++ r.rest = all

theorem Reading.step {r : NReply} {opened : Bool} {read all : Bytes} (h : Reading r opened read all) (e : NEv) (he : e = .headersCompleted → opened = false) :
    Reading (r.step e).2 (opened || decide (e = .headersCompleted)) (read ++ hasRead [(e, (r.step e).1)]) (all ++ arrived [e]) := by
  cases e with
  | headersCompleted =>
    have ho := he rfl
    obtain ⟨h1, h2, h3⟩ := h.closed ho
    have hr := h.rest
    unfold NReply.rest at hr
    rw [h1] at hr
    refine ⟨by simp [NReply.step, NReply.headersCompleted], by simp, h.pos, ?_⟩
    simpa [hasRead, arrived, NReply.step, NReply.headersCompleted, NReply.rest] using hr
  | contentReadyRead bs =>
    have hr := h.rest
    unfold NReply.rest at hr
    refine ⟨by simpa [NReply.step, NReply.contentReadyRead] using h.isOpen, fun ho => ?_, ?_, ?_⟩
    · obtain ⟨h1, h2, h3⟩ := h.closed (by simpa using ho)
      exact ⟨h1, h2, by simp [h3, hasRead]⟩
    · have := h.pos
      show r.pos ≤ (r.content ++ bs).length
      rw [List.length_append]; omega
    · show _ ++ (r.pushed ++ (r.content ++ bs).drop r.pos) = _
      rw [List.drop_append_of_le_length h.pos, ← hr]
      simp [hasRead, arrived]
  | read n =>
    by_cases ho : opened = true
    · subst ho
      obtain ⟨a1, a2, a3, a4⟩ := read_rest r n h.isOpen
      refine ⟨a3, by simp, a4 h.pos, ?_⟩
      show read ++ hasRead [(.read n, (r.read n).1)] ++ (r.read n).2.rest = _
      rw [a2, a1, ← h.rest]
      simp [hasRead, arrived]
    · have ho : opened = false := by simpa using ho
      subst ho
      have e1 : r.step (.read n) = ([], r) := by
        show r.read n = _
        unfold NReply.read
        rw [if_pos (by simp [h.isOpen])]
      rw [e1]
      simpa [hasRead, arrived] using h
  | readAll =>
    by_cases ho : opened = true
    · subst ho
      obtain ⟨a1, a2, a3, a4⟩ := readAll_rest r h.isOpen h.pos
      refine ⟨a3, by simp, a4, ?_⟩
      show read ++ hasRead [(.readAll, r.readAll.1)] ++ r.readAll.2.rest = _
      rw [a2, a1, ← h.rest]
      simp [hasRead, arrived]
    · have ho : opened = false := by simpa using ho
      subst ho
      have e0 : ∀ n, r.read n = ([], r) := by
        intro n
        unfold NReply.read
        rw [if_pos (by simp [h.isOpen])]
      have e1 : r.step .readAll = ([], r) := by
        show r.readAll = _
        unfold NReply.readAll
        dsimp only
        rw [e0, e0]
        rfl
      rw [e1]
      simpa [hasRead, arrived] using h
  | peek n =>
    by_cases ho : opened = true
    · subst ho
      obtain ⟨a1, a2, a3, a4⟩ := peek_rest r n h.isOpen h.pos
      refine ⟨a3, by simp, a4, ?_⟩
      show read ++ hasRead [(.peek n, (r.peek n).1)] ++ (r.peek n).2.rest = _
      rw [a2, ← h.rest]
      simp [hasRead, arrived]
    · have ho : opened = false := by simpa using ho
      subst ho
      have e1 : r.step (.peek n) = ([], r) := by
        show r.peek n = _
        unfold NReply.peek NReply.read
        rw [if_pos (by simp [h.isOpen])]
        rfl
      rw [e1]
      simpa [hasRead, arrived] using h

theorem hasRead_cons (x : NEv × Bytes) (l : List (NEv × Bytes)) : hasRead (x :: l) = hasRead [x] ++ hasRead l := by simp [hasRead]
theorem arrived_cons (e : NEv) (l : List NEv) : arrived (e :: l) = arrived [e] ++ arrived l := by simp [arrived]

theorem Reading.run : ∀ (es : List NEv) {r : NReply} {opened : Bool} {read all : Bytes}, Reading r opened read all → es.count .headersCompleted + (if opened then 1 else 0) ≤ 1 →
    Reading (r.run es).2 (opened || decide (.headersCompleted ∈ es)) (read ++ hasRead (r.run es).1) (all ++ arrived es)
  | [], r, opened, read, all, h, _ => by simpa [NReply.run, hasRead, arrived] using h
  | e :: es, r, opened, read, all, h, hc => by
    have h1 := h.step e (fun he => by
      subst he
      rw [List.count_cons_self] at hc
      by_cases ho : opened = true
      · rw [if_pos ho] at hc; omega
      · simpa using ho)
    have h2 := Reading.run es h1 (by
      by_cases he : e = .headersCompleted
      · subst he
        rw [List.count_cons_self] at hc
        simp only [decide_true, Bool.or_true, if_true]
        omega
      · rw [List.count_cons_of_ne (by simpa using he)] at hc
        simpa [he] using hc)
    have e1 : (r.run (e :: es)).2 = ((r.step e).2.run es).2 := rfl
    have e2 : (r.run (e :: es)).1 = (e, (r.step e).1) :: ((r.step e).2.run es).1 := rfl
    rw [e1, e2, hasRead_cons, arrived_cons, ← List.append_assoc, ← List.append_assoc]
    have e3 : (opened || decide (NEv.headersCompleted ∈ e :: es)) = (opened || decide (e = .headersCompleted) || decide (.headersCompleted ∈ es)) := by
      by_cases he : e = .headersCompleted
      · simp [he]
      · simp [he, Ne.symm he]
    rw [e3]
    exact h2

/-- **C46**: whatever content arrives and whatever the application reads and peeks, in any order: the bytes read are, in order and each once, the first bytes that have
arrived, and `bytesAvailable()` is the number of the others. -/
theorem C46_once_in_order (es : List NEv) (h : es.count .headersCompleted ≤ 1) :
    let p := ({} : NReply).run es
    hasRead p.1 <+: arrived es ∧ (hasRead p.1).length + p.2.bytesAvailable = (arrived es).length := by
  intro p
  have hr : Reading ({} : NReply) false [] [] := ⟨rfl, fun _ => ⟨rfl, rfl, rfl⟩, Nat.le_refl _, rfl⟩
  have := Reading.run es hr (by simpa using h)
  simp only [List.nil_append] at this
  refine ⟨⟨_, this.rest⟩, ?_⟩
  rw [← rest_length _ this.pos, ← this.rest, List.length_append]
  exact Int.natCast_add _ _ |>.symm

/-- **C46**: once the headers are there, `read(n)` returns the next bytes, `n` of them if there are as many; `readAll()` returns all that are left; `peek(n)` returns the same
as `read(n)`, and the next bytes stay the same. -/
theorem C46_amount (es : List NEv) (h : es.count .headersCompleted = 1) :
    let p := ({} : NReply).run es
    let next := (arrived es).drop (hasRead p.1).length
    (∀ n, (p.2.read n).1 = next.take n) ∧ p.2.readAll.1 = next ∧ (∀ n m, (p.2.peek n).1 = next.take n ∧ ((p.2.peek n).2.read m).1 = next.take m) := by
  intro p next
  have hr : Reading ({} : NReply) false [] [] := ⟨rfl, fun _ => ⟨rfl, rfl, rfl⟩, Nat.le_refl _, rfl⟩
  have h1 := Reading.run es hr (by simpa using Nat.le_of_eq h)
  have hm : .headersCompleted ∈ es := List.one_le_count_iff.1 (Nat.le_of_eq h.symm)
  simp only [List.nil_append, Bool.false_or, decide_eq_true hm] at h1
  have hn : next = p.2.rest := by
    show (arrived es).drop (hasRead p.1).length = _
    rw [← h1.rest]
    simp [p]
  rw [hn]
  refine ⟨fun n => (read_rest p.2 n h1.isOpen).1, (readAll_rest p.2 h1.isOpen h1.pos).1, fun n m => ?_⟩
  obtain ⟨a1, a2, a3, -⟩ := peek_rest p.2 n h1.isOpen h1.pos
  exact ⟨a1, by rw [(read_rest _ m a3).1, a2]⟩

/-- An interleaving of arrivals and reads. -/
example : let p := ({} : NReply).run [.headersCompleted, .contentReadyRead b!"abc", .read 2, .contentReadyRead b!"de", .peek 2, .read 1, .readAll, .read 1]
    p.1.map Prod.snd = [[], [], b!"ab", [], b!"cd", b!"c", b!"de", []] ∧ p.2.bytesAvailable = 0 := by
  decide +kernel

theorem arrived_told : ∀ l : List CEv, arrived (toldReply l) = taken l
  | [] => rfl
  | e :: l => by
    have ih := arrived_told l
    have e1 : taken (e :: l) = taken [e] ++ taken l := by simp [taken]
    rw [e1, ← ih]
    cases e <;> first | rfl | (simp [toldReply, arrived, taken])

theorem count_told {l : List CEv} {st : Nat} {hs : Headers} (h : signals l = [.headersCompleted st hs]) : (toldReply l).count .headersCompleted = 1 := by
  have key : ∀ l : List CEv, (toldReply l).count .headersCompleted = ((signals l).filter fun | .headersCompleted .. => true | _ => false).length := by
    intro l
    induction l with
    | nil => rfl
    | cons e l ih => cases e <;> simpa [toldReply, signals, List.filterMap_cons, List.filter_cons, List.count_cons] using ih
  rw [key, h]
  rfl

/-- **C46** with C56: the reply that serves an application is told the whole content of the response before it is told that the client has finished; the content is not
left anywhere else. (`m.content` itself unless it is compressed.) The reply's slot may be called any number of times; the hypothesis says that the model has
not run out of its reactions. -/
theorem C46_whole_response (env : ClientEnv) (fuel : Nat) (c : Client) (hs : WellServed env (fuel + 1) c) (hw : Awaiting c) (hr : ServesReply c) (interims : List Response) (m : Response)
    (segs : List Bytes) (inputs : List CInput) (ha : Replied c.request interims m segs inputs) (hmore : (c.run env (fuel + 1) inputs).onContent ≠ []) :
    ∃ l₁ l₂, (c.run env (fuel + 1) inputs).log = c.log ++ l₁ ++ .finished .noError (num m.head.status) m.head.shown [] :: l₂ ∧
      (toldReply l₁).count .headersCompleted = 1 ∧ Shown env (IsHead c.request) m (arrived (toldReply l₁)) := by
  obtain ⟨l₁, ct, l₂, all, h1, h2, h3, h4, h5⟩ := (answer_reports (served_fresh hs).1 (served_fresh hs).2 hw ha).1
  have he : Eager c.log c := ⟨hr, Or.inr ⟨[], by simp, fun a b d e => by simp at e⟩⟩
  obtain ⟨l, k1, k2⟩ := (run_eager env fuel inputs he).log.resolve_left hmore
  have hl : l = l₁ ++ .finished .noError (num m.head.status) m.head.shown ct :: l₂ := by
    rw [h1, List.append_assoc] at k1
    exact (List.append_cancel_left k1).symm
  have hall : taken l₁ = all := by
    by_cases hn : all = []
    · rw [hn] at h3 ⊢
      exact (List.append_eq_nil_iff.1 h3).1
    · obtain ⟨x, ct', y, e1, e2⟩ := h4.2.1 hn
      obtain ⟨z, e3⟩ := k2 x ct' (y ++ .finished .noError (num m.head.status) m.head.shown ct :: l₂) (by rw [hl, e1]; simp)
      cases y with
      | nil => cases e3
      | cons w y =>
        injection e3 with e4 e5
        subst e4
        have e6 : taken l₁ = all ++ taken y := by
          rw [e1]
          have : x ++ .contentReadyRead ct' :: .consumed ct' :: y = x ++ ([.contentReadyRead ct', .consumed ct'] ++ y) := rfl
          rw [this, taken_append, taken_append, ← e2, List.append_assoc]
          have e9 : taken [.contentReadyRead ct', .consumed ct'] = ct' := by simp [taken]
          rw [e9]
        have e7 := congrArg List.length h3
        rw [e6, List.length_append, List.length_append] at e7
        have e8 : taken y = [] := List.length_eq_zero_iff.1 (by omega)
        rw [e6, e8, List.append_nil]
  have hct : ct = [] := by
    rw [hall] at h3
    exact List.append_right_eq_self.1 h3
  subst hct
  exact ⟨l₁, l₂, h1, count_told h2, by rw [arrived_told, hall]; exact h5⟩

example : ServesReply demoTaking ∧ (demoTaking.run demoEnv 2 demoPiecesRun).onContent ≠ [] := by
  refine ⟨fun calls hc => ?_, by decide +kernel⟩
  have : demoTaking.onContent = List.replicate 9 [.consumeContent] := by decide +kernel
  rw [this] at hc
  exact List.eq_of_mem_replicate hc

/-! ## C47 -/

theorem takeClient_some {a : Bytes} : ∀ {l : List (Bytes × Nat)} {i : Nat} {l' : List (Bytes × Nat)}, takeClient a l = some (i, l') → ∃ x y, l = x ++ (a, i) :: y ∧ l' = x ++ y
  | [], i, l', h => by simp [takeClient] at h
  | (b, j) :: l, i, l', h => by
    unfold takeClient at h
    by_cases hb : b = a
    · rw [if_pos hb] at h
      cases h
      exact ⟨[], l, by simp [hb], rfl⟩
    · rw [if_neg hb] at h
      cases ht : takeClient a l with
      | none => rw [ht] at h; simp at h
      | some q =>
        rw [ht] at h
        simp only [Option.map_some, Option.some.injEq, Prod.mk.injEq] at h
        obtain ⟨x, y, e1, e2⟩ := takeClient_some (i := q.1) (l' := q.2) ht
        refine ⟨(b, j) :: x, y, ?_, ?_⟩
        · rw [e1, h.1]; rfl
        · rw [← h.2, e2]; rfl

theorem takeClient_none {a : Bytes} : ∀ {l : List (Bytes × Nat)}, takeClient a l = none → ∀ i, (a, i) ∉ l
  | [], _, i, hm => by cases hm
  | (b, j) :: l, h, i, hm => by
    unfold takeClient at h
    by_cases hb : b = a
    · rw [if_pos hb] at h; cases h
    · rw [if_neg hb, Option.map_eq_none_iff] at h
      rcases List.mem_cons.1 hm with e | e
      · injection e with e1 e2; exact hb e1.symm
      · exact takeClient_none h i e

/-- The manager's books. -/
structure Books (n : Nam) : Prop where
  pool : ∀ a i, (a, i) ∈ n.pool → a ≠ [] ∧ n.authorities[i]? = some a ∧ i ∉ n.busy ∧ ∀ r, ¬ Uses n r i
  once : (n.pool.map Prod.snd).Nodup
  uses : ∀ r i, Uses n r i → ∃ a, n.authorities[i]? = some a ∧ ReplyFor n r a
  apart : ∀ r₁ r₂ i, Uses n r₁ i → Uses n r₂ i → r₁ = r₂
  busy : ∀ i ∈ n.busy, i < n.authorities.length

theorem uses_append {rs : List NLink} {l : NLink} {n : Nam} (h : n.replies = rs ++ [l]) (r i : Nat) : Uses n r i ↔ (∃ k, rs[r]? = some k ∧ k.client = some i ∧ k.connected = true) ∨ (r = rs.length ∧ l.client = some i ∧ l.connected = true) := by
  unfold Uses
  rw [h]
  constructor
  · rintro ⟨k, h1, h2, h3⟩
    rw [List.getElem?_append] at h1
    split at h1
    · exact Or.inl ⟨k, h1, h2, h3⟩
    · rename_i hr
      rw [List.getElem?_singleton] at h1
      split at h1
      · rename_i hz
        cases h1
        exact Or.inr ⟨by omega, h2, h3⟩
      · cases h1
  · rintro (⟨k, h1, h2, h3⟩ | ⟨rfl, h2, h3⟩)
    · exact ⟨k, by rw [List.getElem?_append_left (by exact (List.getElem?_eq_some_iff.1 h1).1)]; exact h1, h2, h3⟩
    · exact ⟨l, by simp, h2, h3⟩

theorem replyFor_append {rs : List NLink} {l : NLink} {n : Nam} (h : n.replies = rs ++ [l]) {r : Nat} {a : Bytes} (hr : (∃ k, rs[r]? = some k ∧ k.authority = a) ∨ (r = rs.length ∧ l.authority = a)) : ReplyFor n r a := by
  unfold ReplyFor
  rw [h]
  rcases hr with ⟨k, h1, h2⟩ | ⟨rfl, h2⟩
  · exact ⟨k, by rw [List.getElem?_append_left (by exact (List.getElem?_eq_some_iff.1 h1).1)]; exact h1, h2⟩
  · exact ⟨l, by simp, h2⟩

theorem Books.create {n : Nam} (h : Books n) (op : NOp) (a : Bytes) : Books (n.create op a) := by
  unfold Nam.create
  cases ht : takeClient a n.pool with
  | some q =>
    obtain ⟨i, pool⟩ := q
    dsimp only
    obtain ⟨x, y, e1, e2⟩ := takeClient_some ht
    obtain ⟨h1, h2, h3, h4⟩ := h.pool a i (by rw [e1]; simp)
    have hbusy : ∀ j, j ∈ (if op = .unknown ∨ i ∈ n.busy then n.busy else i :: n.busy) → j ∈ n.busy ∨ j = i := by
      intro j hj
      split at hj
      · exact Or.inl hj
      · exact (List.mem_cons.1 hj).symm
    have hnd := h.once
    rw [e1, List.map_append, List.map_cons, List.nodup_append] at hnd
    simp only [List.nodup_cons, List.mem_cons, List.mem_map, not_exists] at hnd
    generalize hn' : ({ n with pool := pool, replies := n.replies ++ [{ client := some i, authority := a }], busy := if op = .unknown ∨ i ∈ n.busy then n.busy else i :: n.busy } : Nam) = n'
    have er : n'.replies = n.replies ++ [{ client := some i, authority := a }] := by rw [← hn']
    have ea : n'.authorities = n.authorities := by rw [← hn']
    have ep : n'.pool = pool := by rw [← hn']
    have eb : n'.busy = if op = .unknown ∨ i ∈ n.busy then n.busy else i :: n.busy := by rw [← hn']
    refine ⟨fun b j hj => ?_, ?_, fun r j hu => ?_, fun r1 r2 j hu1 hu2 => ?_, fun j hj => ?_⟩
    · rw [ep, e2] at hj
      have hji : j ≠ i := by
        rintro rfl
        rcases List.mem_append.1 hj with hj | hj
        · exact hnd.2.2 j ⟨_, hj, rfl⟩ j (Or.inl rfl) rfl
        · exact hnd.2.1.1 _ ⟨hj, rfl⟩
      obtain ⟨k1, k2, k3, k4⟩ := h.pool b j (by rw [e1]; rcases List.mem_append.1 hj with hj | hj <;> simp [hj])
      refine ⟨k1, by rw [ea]; exact k2, fun hb => ?_, fun r hu => ?_⟩
      · rw [eb] at hb
        exact (hbusy j hb).elim k3 hji
      · rcases (uses_append er r j).1 hu with hu | ⟨-, hu, -⟩
        · exact k4 r hu
        · exact hji (Option.some.inj hu).symm
    · rw [ep, e2, List.map_append, List.nodup_append]
      refine ⟨hnd.1, hnd.2.1.2, fun z hz w hw => ?_⟩
      exact hnd.2.2 z (by simpa using hz) w (Or.inr (by simpa using hw))
    · rcases (uses_append er r j).1 hu with hu | ⟨rfl, hu, -⟩
      · obtain ⟨b, k1, l, k2, k3⟩ := h.uses r j hu
        exact ⟨b, by rw [ea]; exact k1, replyFor_append er (Or.inl ⟨l, k2, k3⟩)⟩
      · have : i = j := Option.some.inj hu
        subst this
        exact ⟨a, by rw [ea]; exact h2, replyFor_append er (Or.inr ⟨rfl, rfl⟩)⟩
    · rcases (uses_append er r1 j).1 hu1 with hu1 | ⟨rfl, hu1, -⟩ <;> rcases (uses_append er r2 j).1 hu2 with hu2 | ⟨rfl, hu2, -⟩
      · exact h.apart r1 r2 j hu1 hu2
      · have : i = j := Option.some.inj hu2
        subst this
        exact absurd hu1 (h4 r1)
      · have : i = j := Option.some.inj hu1
        subst this
        exact absurd hu2 (h4 r2)
      · rfl
    · rw [eb] at hj
      rw [ea]
      rcases hbusy j hj with hj | rfl
      · exact h.busy j hj
      · exact (List.getElem?_eq_some_iff.1 h2).1
  | none =>
    dsimp only
    have hbusy : ∀ j, j ∈ (if op = .unknown then n.busy else n.authorities.length :: n.busy) → j ∈ n.busy ∨ j = n.authorities.length := by
      intro j hj
      split at hj
      · exact Or.inl hj
      · exact (List.mem_cons.1 hj).symm
    generalize hn' : ({ n with authorities := n.authorities ++ [a], replies := n.replies ++ [{ client := some n.authorities.length, authority := a }], busy := if op = .unknown then n.busy else n.authorities.length :: n.busy } : Nam) = n'
    have er : n'.replies = n.replies ++ [{ client := some n.authorities.length, authority := a }] := by rw [← hn']
    have ea : n'.authorities = n.authorities ++ [a] := by rw [← hn']
    have ep : n'.pool = n.pool := by rw [← hn']
    have eb : n'.busy = if op = .unknown then n.busy else n.authorities.length :: n.busy := by rw [← hn']
    have hold : ∀ {j b}, n.authorities[j]? = some b → n'.authorities[j]? = some b := fun {j b} hj => by
      rw [ea, List.getElem?_append_left (List.getElem?_eq_some_iff.1 hj).1]; exact hj
    have hfresh : ∀ r, ¬ Uses n r n.authorities.length := fun r hu => by
      obtain ⟨b, hb, -⟩ := h.uses r _ hu
      have := (List.getElem?_eq_some_iff.1 hb).1
      omega
    refine ⟨fun b j hj => ?_, by rw [ep]; exact h.once, fun r j hu => ?_, fun r1 r2 j hu1 hu2 => ?_, fun j hj => ?_⟩
    · rw [ep] at hj
      obtain ⟨k1, k2, k3, k4⟩ := h.pool b j hj
      have hji : j ≠ n.authorities.length := by
        have := (List.getElem?_eq_some_iff.1 k2).1
        omega
      refine ⟨k1, hold k2, fun hb => ?_, fun r hu => ?_⟩
      · rw [eb] at hb
        exact (hbusy j hb).elim k3 hji
      · rcases (uses_append er r j).1 hu with hu | ⟨-, hu, -⟩
        · exact k4 r hu
        · exact hji (Option.some.inj hu).symm
    · rcases (uses_append er r j).1 hu with hu | ⟨rfl, hu, -⟩
      · obtain ⟨b, k1, l, k2, k3⟩ := h.uses r j hu
        exact ⟨b, hold k1, replyFor_append er (Or.inl ⟨l, k2, k3⟩)⟩
      · have : n.authorities.length = j := Option.some.inj hu
        subst this
        exact ⟨a, by rw [ea]; simp, replyFor_append er (Or.inr ⟨rfl, rfl⟩)⟩
    · rcases (uses_append er r1 j).1 hu1 with hu1 | ⟨rfl, hu1, -⟩ <;> rcases (uses_append er r2 j).1 hu2 with hu2 | ⟨rfl, hu2, -⟩
      · exact h.apart r1 r2 j hu1 hu2
      · have : n.authorities.length = j := Option.some.inj hu2
        subst this
        exact absurd hu1 (hfresh r1)
      · have : n.authorities.length = j := Option.some.inj hu1
        subst this
        exact absurd hu2 (hfresh r2)
      · rfl
    · rw [eb] at hj
      rw [ea, List.length_append, List.length_singleton]
      rcases hbusy j hj with hj | rfl
      · have := h.busy j hj; omega
      · omega

/-- Replies that are told less than before. -/
theorem Books.fewer {n n' : Nam} (h : Books n) (hp : n'.pool = n.pool) (ha : n'.authorities = n.authorities) (hb : n'.busy = n.busy) (hu : ∀ r i, Uses n' r i → Uses n r i)
    (hf : ∀ r a, ReplyFor n r a → ReplyFor n' r a) : Books n' := by
  refine ⟨fun a i hi => ?_, by rw [hp]; exact h.once, fun r i hr => ?_, fun r1 r2 i h1 h2 => h.apart r1 r2 i (hu _ _ h1) (hu _ _ h2), fun i hi => by rw [ha]; exact h.busy i (hb ▸ hi)⟩
  · obtain ⟨k1, k2, k3, k4⟩ := h.pool a i (hp ▸ hi)
    exact ⟨k1, by rw [ha]; exact k2, by rw [hb]; exact k3, fun r hr => k4 r (hu r i hr)⟩
  · obtain ⟨a, k1, k2⟩ := h.uses r i (hu r i hr)
    exact ⟨a, by rw [ha]; exact k1, hf r a k2⟩

theorem Books.finished {n : Nam} (h : Books n) {i : Nat} (hi : i ∈ n.busy) (err : Bool) : Books (n.clientFinished i err) := by
  have hlink : ∀ l : NLink, (l.clientFinished i err).authority = l.authority ∧ ((l.clientFinished i err).connected = true → l.connected = true ∧ (l.clientFinished i err).client = l.client ∧ l.client ≠ some i) := by
    intro l
    unfold NLink.clientFinished
    by_cases hc : l.client = some i ∧ l.connected = true
    · rw [if_pos hc]
      cases err <;> exact ⟨rfl, fun hk => by cases hk⟩
    · rw [if_neg hc]
      exact ⟨rfl, fun hk => ⟨hk, rfl, fun he => hc ⟨he, hk⟩⟩⟩
  have hu : ∀ r j, Uses (n.clientFinished i err) r j → Uses n r j ∧ j ≠ i := by
    rintro r j ⟨l, h1, h2, h3⟩
    have h1' : (n.replies.map (NLink.clientFinished i err))[r]? = some l := h1
    rw [List.getElem?_map, Option.map_eq_some_iff] at h1'
    obtain ⟨k, k1, rfl⟩ := h1'
    obtain ⟨-, hk⟩ := hlink k
    obtain ⟨c1, c2, c3⟩ := hk h3
    rw [c2] at h2
    exact ⟨⟨k, k1, h2, c1⟩, fun e => c3 (by rw [h2, e])⟩
  have hf : ∀ r a, ReplyFor n r a → ReplyFor (n.clientFinished i err) r a := by
    rintro r a ⟨l, h1, h2⟩
    exact ⟨l.clientFinished i err, by show (n.replies.map _)[r]? = _; rw [List.getElem?_map, h1]; rfl, (hlink l).1.trans h2⟩
  have hlen := h.busy i hi
  have hget : n.authorities[i]? = some (n.authorities.getD i []) := by
    rw [List.getD_eq_getElem?_getD, List.getElem?_eq_getElem hlen]; rfl
  refine ⟨fun a j hj => ?_, ?_, fun r j hr => ?_, fun r1 r2 j h1 h2 => h.apart r1 r2 j (hu _ _ h1).1 (hu _ _ h2).1, fun j hj => ?_⟩
  · have hj' : (a, j) ∈ (if n.authorities.getD i [] = [] then n.pool else (n.authorities.getD i [], i) :: n.pool) := hj
    have hbusy : ∀ k, k ∈ (n.clientFinished i err).busy → k ∈ n.busy ∧ k ≠ i := fun k hk => by
      have : k ∈ n.busy.filter (· ≠ i) := hk
      simpa using this
    have hold : (a, j) ∈ n.pool → a ≠ [] ∧ (n.clientFinished i err).authorities[j]? = some a ∧ j ∉ (n.clientFinished i err).busy ∧ ∀ r, ¬ Uses (n.clientFinished i err) r j := fun hj => by
      obtain ⟨k1, k2, k3, k4⟩ := h.pool a j hj
      exact ⟨k1, k2, fun hb => k3 (hbusy j hb).1, fun r hr => k4 r (hu r j hr).1⟩
    split at hj'
    · exact hold hj'
    · rename_i ha
      rcases List.mem_cons.1 hj' with e | hj'
      · injection e with e1 e2
        subst e1 e2
        exact ⟨ha, hget, fun hb => (hbusy _ hb).2 rfl, fun r hr => (hu r _ hr).2 rfl⟩
      · exact hold hj'
  · show ((if n.authorities.getD i [] = [] then n.pool else (n.authorities.getD i [], i) :: n.pool).map Prod.snd).Nodup
    split
    · exact h.once
    · rw [List.map_cons, List.nodup_cons]
      refine ⟨fun hm => ?_, h.once⟩
      obtain ⟨⟨a, j⟩, h1, h2⟩ := List.mem_map.1 hm
      have : j = i := h2
      subst this
      exact (h.pool a j h1).2.2.1 hi
  · obtain ⟨a, k1, k2⟩ := h.uses r j (hu r j hr).1
    exact ⟨a, k1, hf r a k2⟩
  · have : j ∈ n.busy.filter (· ≠ i) := hj
    exact h.busy j (List.mem_filter.1 this).1

theorem Books.step {n : Nam} (h : Books n) {l : NLabel} (hl : Orderly n l) : Books (n.step l) := by
  have hmod : ∀ (r : Nat) (f : NLink → NLink), (∀ l, (f l).authority = l.authority ∧ ((f l).connected = true → l.connected = true ∧ (f l).client = l.client)) → Books { n with replies := n.replies.modify r f } := by
    intro r f hf
    refine h.fewer rfl rfl rfl ?_ ?_
    · rintro q i ⟨l, h1, h2, h3⟩
      have h1' : (n.replies.modify r f)[q]? = some l := h1
      rw [List.getElem?_modify, Option.map_eq_map, Option.map_eq_some_iff] at h1'
      obtain ⟨k, k1, rfl⟩ := h1'
      split at h2
      · rename_i hr
        rw [if_pos hr] at h3
        obtain ⟨c1, c2⟩ := (hf k).2 h3
        exact ⟨k, k1, c2 ▸ h2, c1⟩
      · rename_i hr
        rw [if_neg hr] at h3
        exact ⟨k, k1, h2, h3⟩
    · rintro q a ⟨l, h1, h2⟩
      refine ⟨if r = q then f l else l, ?_, ?_⟩
      · show (n.replies.modify r f)[q]? = _
        rw [List.getElem?_modify, h1]
        by_cases hr : r = q
        · simp [hr]
        · simp [hr]
      · split
        · exact (hf l).1.trans h2
        · exact h2
  cases l with
  | create op a => exact h.create op a
  | clientFinished i err => exact h.finished hl err
  | abort r =>
    show Books (match n.replies[r]? with | some { client := some i, .. } => if i ∈ n.busy then n.clientFinished i true else n | _ => n)
    split
    · split
      · exact h.finished (by assumption) true
      · exact h
    · exact h
  | errorHandled r =>
    refine hmod r _ fun l => ?_
    by_cases hc : l.connected = true
    · rw [if_pos hc]; exact ⟨rfl, fun _ => ⟨hc, rfl⟩⟩
    · rw [if_neg hc]; exact ⟨rfl, fun hk => absurd hk hc⟩
  | delete r => exact hmod r _ fun l => ⟨rfl, fun hk => by cases hk⟩

theorem managed_books {n : Nam} (h : Managed n) : Books n := by
  induction h with
  | new => exact ⟨by rintro _ _ ⟨⟩, List.nodup_nil, by rintro _ _ ⟨l, h, -⟩; simp at h, by rintro _ _ _ ⟨l, h, -⟩; simp at h, by rintro _ ⟨⟩⟩
  | step n l _ hl ih => exact ih.step hl

/-- **C47** (partial: the clients are orderly, see C37; and a reply whose `error()` is being handled, which is no longer connected but still holds the client, is not
counted). At any time, whatever requests the application has made, aborted and deleted, and in whatever order the clients have finished: no client serves two
replies. -/
theorem C47_exclusive_partial (n : Nam) (h : Managed n) (r₁ r₂ i : Nat) (h₁ : Uses n r₁ i) (h₂ : Uses n r₂ i) : r₁ = r₂ := (managed_books h).apart r₁ r₂ i h₁ h₂

/-- **C47**: a client only ever serves replies for the authority it was created for. -/
theorem C47_authority (n : Nam) (h : Managed n) (r i : Nat) (hu : Uses n r i) (a : Bytes) (hr : ReplyFor n r a) : n.authorities[i]? = some a := by
  obtain ⟨b, h1, l, h2, h3⟩ := (managed_books h).uses r i hu
  obtain ⟨k, k1, k2⟩ := hr
  rw [h2] at k1
  cases k1
  rw [h1, ← h3, k2]

/-- **C47**: a new request is given a client that has nothing to do: an old one that was created for the same authority and serves nobody, or a new one. -/
theorem C47_new_request (n : Nam) (h : Managed n) (op : NOp) (a : Bytes) :
    ∃ i, Uses (n.create op a) n.replies.length i ∧ ReplyFor (n.create op a) n.replies.length a ∧ i ∉ n.busy ∧ (∀ r, ¬ Uses n r i) ∧ (n.authorities[i]? = some a ∨ i = n.authorities.length) := by
  have hb := managed_books h
  unfold Nam.create
  cases ht : takeClient a n.pool with
  | some q =>
    obtain ⟨i, pool⟩ := q
    obtain ⟨x, y, e1, e2⟩ := takeClient_some ht
    obtain ⟨h1, h2, h3, h4⟩ := hb.pool a i (by rw [e1]; simp)
    exact ⟨i, ⟨{ client := some i, authority := a }, by simp, rfl, rfl⟩, ⟨{ client := some i, authority := a }, by simp, rfl⟩, h3, h4, Or.inl h2⟩
  | none =>
    refine ⟨n.authorities.length, ⟨{ client := some n.authorities.length, authority := a }, by simp, rfl, rfl⟩, ⟨{ client := some n.authorities.length, authority := a }, by simp, rfl⟩, fun hm => ?_, fun r hu => ?_, Or.inr rfl⟩
    · have := hb.busy _ hm
      omega
    · obtain ⟨b, hb, -⟩ := hb.uses r _ hu
      have := (List.getElem?_eq_some_iff.1 hb).1
      omega

/-- Managers whose clients are orderly in a run. -/
theorem managed_run : ∀ (ls : List NLabel) {n : Nam}, Managed n → (∀ a l b, ls = a ++ l :: b → Orderly (n.run a) l) → Managed (n.run ls)
  | [], _, h, _ => h
  | l :: ls, n, h, ho => managed_run ls (.step n l h (ho [] l ls rfl)) fun a k b e => ho (l :: a) k b (by rw [e]; rfl)

/-- Two requests for one authority at a time, one for another; a client is used again; a request whose operation is not known. -/
def demoNam : List NLabel := [.create .get b!"a:1", .create .post b!"a:1", .create .get b!"b", .clientFinished 1 false, .create .put b!"a:1", .clientFinished 0 true, .errorHandled 0, .create .unknown b!"a:1"]

example : Managed (({} : Nam).run demoNam) ∧ Uses (({} : Nam).run demoNam) 3 1 ∧ Uses (({} : Nam).run demoNam) 4 0 ∧ Uses (({} : Nam).run demoNam) 2 2 ∧ (({} : Nam).run demoNam).authorities = [b!"a:1", b!"a:1", b!"b"] := by
  refine ⟨managed_run _ .new fun a l b e => ?_, ⟨{ client := some 1, authority := b!"a:1" }, by decide +kernel, rfl, rfl⟩, ⟨{ client := some 0, authority := b!"a:1" }, by decide +kernel, rfl, rfl⟩,
    ⟨{ client := some 2, authority := b!"b" }, by decide +kernel, rfl, rfl⟩, by decide +kernel⟩
  have hl : a.length < 8 := by
    have := congrArg List.length e
    simp [demoNam] at this
    omega
  have ha : a = demoNam.take a.length := by rw [e]; simp
  have hget : l = demoNam[a.length]?.getD (.delete 0) := by rw [e]; simp
  generalize a.length = m at hl ha hget
  rw [ha, hget]
  have : m = 0 ∨ m = 1 ∨ m = 2 ∨ m = 3 ∨ m = 4 ∨ m = 5 ∨ m = 6 ∨ m = 7 := by omega
  rcases this with rfl | rfl | rfl | rfl | rfl | rfl | rfl | rfl <;> first | trivial | (show _ ∈ _; decide +kernel)

/-- **C47 is false of the code.** (1) The client of `C37_violation` emits `finished()` twice for one request; the manager then has it twice in its pool, and gives it to two
requests at the same time. (2) While `error()` of a reply is handled the reply still holds its client, which may already serve another request: aborting the old
reply then ends the new one. -/
theorem C47_violation :
    (let c := demoAborting.run demoEnv 1 (demoHeadRun b!"HEAD");
      (c.log.filter fun | .accepted _ => true | _ => false).length = 1 ∧ (c.log.filter fun | .finished .. => true | _ => false).length = 2) ∧
    (let n := ({} : Nam).run [.create .head b!"a", .clientFinished 0 true, .clientFinished 0 false, .errorHandled 0, .create .get b!"a", .create .get b!"a"];
      n.replies = [{ client := none, connected := false, finished := true, authority := b!"a" }, { client := some 0, authority := b!"a" }, { client := some 0, authority := b!"a" }]) ∧
    (let n := ({} : Nam).run [.create .get b!"a", .clientFinished 0 true, .create .get b!"a"];
      n.replies = [{ client := some 0, connected := false, authority := b!"a" }, { client := some 0, authority := b!"a" }] ∧
      (n.step (.abort 0)).replies[1]? = some { client := some 0, connected := false, authority := b!"a" }) := by
  decide +kernel

end Pillow.Props
