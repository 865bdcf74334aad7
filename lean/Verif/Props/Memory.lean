import Verif.Spec.Memory
import Verif.Lemmas.Memory
set_option linter.unusedSimpArgs false
set_option linter.unusedVariables false
/-!
# C95: nothing outside the request buffer is touched, and no assertion of the head parser fails

Foreign code may do anything at any time it is in control: call any method, `initialize` at any depth of nested calls, let any bytes arrive.
-/
namespace Pillow.Memory
open Pillow MemorySpec

theorem tracked_inv {s : Conf} {cap : Nat} (h : Tracked s cap) : MInv s.c s.stack cap := by
  induction h with
  | start => exact ⟨by simp, Nat.le_refl _, by simp, ⟨fun e => (nomatch e), fun e => (nomatch e)⟩⟩
  | step s s' l cap _ hs ih => exact step_inv ih hs

/-! ### Where the stores and views are -/

theorem within_append {cap : Nat} : ∀ {a b : List Access} {buf : Bytes}, Within cap buf a → Within cap (a.foldl apply buf) b → Within cap buf (a ++ b)
  | [], _, _, _, h => h
  | _ :: _, _, _, h1, h2 => ⟨h1.1, within_append h1.2 h2⟩

theorem nul_within {cap : Nat} {s : Slice} {buf : Bytes} (h : Before buf.length s) : Within cap buf (nulTermAccess s) := by
  unfold nulTermAccess
  split
  · trivial
  · rename_i h0
    rcases h with rfl | h
    · exact absurd rfl h0
    · exact ⟨Nat.le_of_lt h, h, trivial⟩

theorem nul_fold (s : Slice) (buf : Bytes) : (nulTermAccess s).foldl apply buf = nulTerm buf s := by
  unfold nulTermAccess nulTerm
  split <;> rfl

theorem setup_within {cap : Nat} : ∀ {refs : List FieldRef} {buf : Bytes}, (∀ r ∈ refs, Before buf.length r.name ∧ Before buf.length r.value) → Within cap buf (setupAccess refs)
  | [], _, _ => trivial
  | r :: refs, buf, h => by
    have hr := h r (by simp)
    show Within cap buf ((nulTermAccess r.name ++ nulTermAccess r.value) ++ setupAccess refs)
    refine within_append (within_append (nul_within hr.1) (nul_within (by rw [nul_fold, nulTerm_length]; exact hr.2))) (setup_within ?_)
    intro r' hr'
    rw [List.foldl_append, nul_fold, nul_fold, nulTerm_length, nulTerm_length]
    exact h r' (by simp [hr'])

theorem setup_fold : ∀ (refs : List FieldRef) (buf : Bytes), (setupAccess refs).foldl apply buf = setupHeaders buf refs
  | [], _ => rfl
  | r :: refs, buf => by
    show ((nulTermAccess r.name ++ nulTermAccess r.value) ++ setupAccess refs).foldl apply buf = _
    rw [List.foldl_append, List.foldl_append, nul_fold, nul_fold, setup_fold]
    rfl

theorem prepare_fold (p : Parser) (clen : Int) (buf : Bytes) : (prepareAccess p clen).foldl apply buf = (prepareFields p buf).1 := by
  unfold prepareAccess prepareFields
  simp only [List.foldl_append, nul_fold]
  by_cases h : p.query.len = 0
  · rw [if_pos h, if_pos h, nul_fold]; rfl
  · rw [if_neg h, if_neg h]; rfl

theorem prepare_within {cap : Nat} {p : Parser} {clen : Int} {buf : Bytes} (h : Bound p p.bodyStart) (h2 : p.bodyStart + clen.toNat ≤ buf.length) :
    Within cap buf (prepareAccess p clen) := by
  have hm : p.bodyStart ≤ buf.length := by omega
  unfold prepareAccess
  have key : ∀ {a b : List Access} {b0 : Bytes}, Within cap b0 a → (∀ b1 : Bytes, b1.length = (a.foldl apply b0).length → Within cap b1 b) → Within cap b0 (a ++ b) :=
    fun ha hb => within_append ha (hb _ rfl)
  have lens : ∀ (s : Slice) (b : Bytes), ((nulTermAccess s).foldl apply b).length = b.length := fun s b => by rw [nul_fold, nulTerm_length]
  have hfirst : Within cap buf (if p.query.len = 0 then nulTermAccess p.uri else [.view p.uri]) := by
    split
    · exact nul_within (h.u.mono hm)
    · rename_i hq
      exact ⟨(h.u.mono hm).le, trivial⟩
  have hlen : ((if p.query.len = 0 then nulTermAccess p.uri else [.view p.uri]).foldl apply buf).length = buf.length := by
    split
    · exact lens _ _
    · rfl
  refine within_append (within_append (within_append (within_append (within_append (within_append hfirst ?_) ?_) ?_) ?_) ?_) ?_
  all_goals (try rw [List.foldl_append]); (try rw [List.foldl_append]); (try rw [List.foldl_append]); (try rw [List.foldl_append]); (try rw [List.foldl_append])
  · exact nul_within (by rw [hlen]; exact h.m.mono hm)
  · exact nul_within (by rw [lens, hlen]; exact h.f.mono hm)
  · exact nul_within (by rw [lens, lens, hlen]; exact h.p.mono hm)
  · exact nul_within (by rw [lens, lens, lens, hlen]; exact h.q.mono hm)
  · exact nul_within (by rw [lens, lens, lens, lens, hlen]; exact h.v.mono hm)
  · refine ⟨?_, trivial⟩
    rw [lens, lens, lens, lens, lens, hlen]
    exact h2

/-- **C95, stores and views.** Whatever foreign code does and whatever arrives, in whatever pieces: all memory touched by the next piece of code lies in the request buffer — the bytes read from the
device are stored, with the NUL behind them, in allocated memory; the parser runs over content; the names compared by its callback, the request fields that become readable, the NULs stored behind
the fields and the content lie in what has been received and not yet been dropped. -/
theorem C95_within {s : Conf} {cap : Nat} (h : Tracked s cap) {i : Instr} {rest : List Instr} (hi : s.stack = i :: rest) :
    Within (capacityAfter i s.c cap) s.c.buf (accesses i s.c) := by
  have hm := tracked_inv h
  rw [hi] at hm
  cases i
  case processInput =>
    have hp : Plain s.c := hm.top
    dsimp only [accesses, capacityAfter]
    split
    · trivial
    · split
      · trivial
      · rename_i h0 d hd
        apply within_append
        · split
          · trivial
          · rename_i hne
            refine ⟨?_, trivial⟩
            have := (reserve_ge cap (s.c.buf.length + d.inp.length + 1)).1
            show _ < _; omega
        · have hb : (if d.inp = [] then [] else [Access.fill d.inp]).foldl apply s.c.buf = s.c.buf ++ d.inp := by
            split
            · rename_i e; rw [e]; simp
            · rfl
          rw [hb]
          by_cases hc : s.c.st = .receivingHeaders ∧ s.c.buf ++ d.inp ≠ []
          · rw [if_pos hc]
            obtain ⟨p, b1, b2, b3, b4⟩ := processInput_cases hp hd hc.1 hc.2
            obtain ⟨a1, a2, a3, a4, a5⟩ := hp.headers hc.1
            refine ⟨by show s.c.parser.nread ≤ (s.c.buf ++ d.inp).length; rw [List.length_append]; omega, ?_⟩
            have key : ∀ l : List FieldRef, (∀ f ∈ l, f ∈ (s.c.parser.execute (s.c.buf ++ d.inp) s.c.parser.nread).fields) → ∀ c', Within c' (s.c.buf ++ d.inp) (l.map fun f => Access.view f.name) := by
              intro l
              induction l with
              | nil => intro _ _; trivial
              | cons f l ih =>
                intro hl c'
                exact ⟨((b2.fields f (hl f List.mem_cons_self)).1.mono b1).le, ih (fun g hg => hl g (List.mem_cons_of_mem _ hg)) c'⟩
            exact key _ (fun f hf => List.mem_of_mem_drop hf) _
          · rw [if_neg hc]; trivial
  case recvContent =>
    dsimp only [accesses]
    split
    · trivial
    · exact setup_within hm.refs
  case sendHeaders =>
    have ht : Bound s.c.parser s.c.parser.bodyStart ∧ 0 ≤ s.c.clen ∧ s.c.parser.bodyStart + s.c.clen.toNat ≤ s.c.buf.length := hm.top
    dsimp only [accesses]
    split
    · trivial
    · split
      · refine within_append (setup_within hm.refs) (prepare_within ht.1 ?_)
        rw [setup_fold, setupHeaders_length]; exact ht.2.2
      · exact prepare_within ht.1 ht.2.2
  all_goals trivial

/-- **C95, what is allocated.** The content never exceeds the capacity. -/
theorem C95_size {s : Conf} {cap : Nat} (h : Tracked s cap) : s.c.buf.length ≤ cap := (tracked_inv h).cap

/-- **C95, the uses are the ones there are.** For every state, reachable or not: the buffer after a piece of code that does not drop the request is what the listed uses leave. -/
theorem C95_effect (k : Nat) (i : Instr) (c : Conn) (hi : i ≠ .completedRest) : (accesses i c).foldl apply c.buf = (exec k i c).1.buf := by
  by_cases hc : i ≠ .processInput ∧ i ≠ .recvContent ∧ i ≠ .sendHeaders ∧ i ≠ .completedRest ∧ i ≠ .completedRest2 ∧ i ≠ .flushing ∧ ∀ e, i ≠ .errorResponse e
  · rw [(exec_calm k i hc c).1.1]
    obtain ⟨a, b, d, -⟩ := hc
    cases i <;> first | rfl | exact absurd rfl a | exact absurd rfl b | exact absurd rfl d
  · cases i
    case processInput =>
      show _ = c.processInput.1.buf
      dsimp only [accesses]
      unfold Conn.processInput
      split
      · rfl
      · cases hd : c.dev with
        | none => rfl
        | some d =>
          simp only []
          have h1 : ((if d.inp = [] then [] else [Access.fill d.inp]) ++
              (if c.st = .receivingHeaders ∧ c.buf ++ d.inp ≠ [] then
                Access.scan c.parser.nread :: ((c.parser.execute (c.buf ++ d.inp) c.parser.nread).fields.drop c.parser.fields.length).map fun f => Access.view f.name
              else [])).foldl apply c.buf = c.buf ++ d.inp := by
            rw [List.foldl_append]
            have hb : (if d.inp = [] then [] else [Access.fill d.inp]).foldl apply c.buf = c.buf ++ d.inp := by
              split
              · rename_i e; rw [e]; simp
              · rfl
            rw [hb]
            have hv : ∀ (l : List FieldRef) (b : Bytes), (l.map fun f => Access.view f.name).foldl apply b = b := by
              intro l
              induction l with
              | nil => intro _; rfl
              | cons f l ih => intro b; exact ih b
            split
            · exact hv _ _
            · rfl
          rw [h1]
          have hf : (c.fill d).buf = c.buf ++ d.inp := rfl
          have hpa : (c.fill d).parse.buf = c.buf ++ d.inp := rfl
          split
          · split
            · exact hpa.symm
            · split <;> exact hpa.symm
          · split <;> exact hf.symm
    case recvContent =>
      show _ = c.recvContent.1.buf
      dsimp only [accesses]
      unfold Conn.recvContent
      split
      · rfl
      · rw [setup_fold]
        simp only []
        split
        · rfl
        · split
          · rfl
          · split
            · split
              · refine Eq.trans ?_ (write_same _ _).1.symm
                rfl
              · rfl
            · rfl
    case sendHeaders =>
      show _ = c.sendHeaders.1.buf
      dsimp only [accesses]
      unfold Conn.sendHeaders
      split
      · rfl
      · rw [List.foldl_append, prepare_fold]
        simp only []
        split
        · rw [setup_fold]; rfl
        · rfl
    case completedRest => exact absurd rfl hi
    case completedRest2 => exact (toReceivingHeaders_same c).1.symm
    case flushing =>
      show _ = c.toFlushing.1.buf
      unfold Conn.toFlushing; split <;> rfl
    case errorResponse code =>
      show _ = (c.errorResponse code).1.buf
      unfold Conn.errorResponse; split
      · rfl
      · exact (write_same _ _).1.symm
    all_goals exact absurd ⟨by simp, by simp, by simp, by simp, by simp, by simp, by simp⟩ hc

/-- **C95, assertions.** Whenever the head parser is run, its assertions hold: before (the position to start from is not behind the end) and after (all positions it remembers are inside). -/
theorem C95_assertions {s : Conf} {cap : Nat} (h : Tracked s cap) {rest : List Instr} (hi : s.stack = .processInput :: rest) (hst : s.c.st = .receivingHeaders)
    {d : Dev} (hd : s.c.dev = some d) (hne : s.c.buf ++ d.inp ≠ []) : s.c.parser.asserted (s.c.buf ++ d.inp) s.c.parser.nread := by
  have hm := tracked_inv h
  rw [hi] at hm
  have hp : Plain s.c := hm.top
  obtain ⟨p, b1, b2, b3, b4⟩ := processInput_cases hp hd hst hne
  obtain ⟨a1, a2, a3, a4, a5⟩ := hp.headers hst
  have hl : 0 < (s.c.buf ++ d.inp).length := List.length_pos_iff.2 hne
  have h1 := b2.mark
  have h2 := b2.fieldStart
  have h3 := b2.fieldLen
  have h4 := b2.body
  unfold Parser.asserted
  simp only []
  refine ⟨by rw [List.length_append]; omega, ?_, by omega, by omega, by omega, by omega⟩
  rcases b4 with ⟨e1, e2⟩ | ⟨e1, e2, e3⟩
  · rw [if_neg (by rw [e1]; simp), e2]; omega
  · rw [if_pos (by omega), e3]; omega

/-- **C95, the header of the announced length.** Its index (line 426) is one of a header (`at`, line 223). -/
theorem C95_index {buf : Bytes} {refs : List FieldRef} {i : Nat} (h : contentLengthIndex buf refs = some i) : i < refs.length := by
  have key : ∀ (l : List FieldRef) (acc : Option Nat × Nat), (∀ j, acc.1 = some j → j < acc.2) →
      ∀ j, (l.foldl (fun (acc : Option Nat × Nat) r => (if r.name.len == 14 && asciiEqualsCI (r.name.of buf) b!"content-length" then some acc.2 else acc.1, acc.2 + 1)) acc).1 = some j → j < acc.2 + l.length := by
    intro l
    induction l with
    | nil => intro acc ha j hj; exact Nat.lt_of_lt_of_le (ha j hj) (Nat.le_add_right _ _)
    | cons r l ih =>
      intro acc ha j hj
      rw [List.foldl_cons] at hj
      have := ih _ ?_ j hj
      · simp only [List.length_cons] at this ⊢; omega
      · intro j' hj'
        simp only [] at hj' ⊢
        split at hj'
        · cases hj'; omega
        · have := ha j' hj'; omega
  have := key refs (none, 0) (fun j e => nomatch e) i h
  simpa using this

/-! ### A request with content, in two pieces -/

/-- A run with the capacity. -/
def track : Conf → Nat → List Label → Option (Conf × Nat)
  | s, cap, [] => some (s, cap)
  | s, cap, l :: ls => (s.step l).bind fun s' => track s' (s.capacityAfter l cap) ls

theorem track_tracked : ∀ {ls : List Label} {s s' : Conf} {cap cap' : Nat}, Tracked s cap → track s cap ls = some (s', cap') → Tracked s' cap'
  | [], _, _, _, _, h, e => by cases e; exact h
  | l :: ls, s, s', cap, cap', h, e => by
    unfold track at e
    cases hs : s.step l with
    | none => rw [hs] at e; cases e
    | some t => rw [hs] at e; exact track_tracked (Tracked.step s t l cap h hs) e

def upload : List Label :=
  [.init, .recv b!"POST /a?b HTTP/1.1\r\nContent-Le", .call .processInput, .tau 0, .recv b!"ngth: 3\r\n\r\nx", .call .processInput, .tau 0, .tau 0, .tau 0, .recv b!"yzGET", .call .processInput, .tau 0]

/-- The request is complete, and the next piece of code stores NULs behind nine fields. -/
theorem C95_demo : ∃ s cap, Tracked s cap ∧ s.c.fault = none ∧ s.stack = [.sendHeaders] ∧ s.c.buf.length = 47 ∧ cap = 48 ∧
    accesses .sendHeaders s.c = [.view ⟨20, 14⟩, .nul 34, .view ⟨36, 1⟩, .nul 37, .view ⟨5, 4⟩, .view ⟨0, 4⟩, .nul 4, .view ⟨5, 2⟩, .nul 7, .view ⟨8, 1⟩, .nul 9, .view ⟨10, 8⟩, .nul 18, .view ⟨41, 3⟩] := by
  have h : (track {} 0 upload).isSome = true := by decide +kernel
  have hq : (track {} 0 upload).map (fun x => decide (x.1.c.fault = none ∧ x.1.stack = [.sendHeaders] ∧ x.1.c.buf.length = 47 ∧ x.2 = 48 ∧
    accesses .sendHeaders x.1.c = [.view ⟨20, 14⟩, .nul 34, .view ⟨36, 1⟩, .nul 37, .view ⟨5, 4⟩, .view ⟨0, 4⟩, .nul 4, .view ⟨5, 2⟩, .nul 7, .view ⟨8, 1⟩, .nul 9, .view ⟨10, 8⟩, .nul 18, .view ⟨41, 3⟩])) = some true := by
    decide +kernel
  obtain ⟨⟨s, cap⟩, e⟩ := Option.isSome_iff_exists.1 h
  rw [e] at hq
  exact ⟨s, cap, track_tracked .start e, of_decide_eq_true (Option.some.inj hq)⟩

/-- The parser is run with an unfinished head in the buffer, and a second piece of it arriving. -/
theorem C95_demo_assertions : ∃ s cap rest d, Tracked s cap ∧ s.stack = .processInput :: rest ∧ s.c.st = .receivingHeaders ∧ s.c.dev = some d ∧ s.c.parser.nread = 30 ∧ d.inp.length = 12 := by
  have h : (track {} 0 (upload.take 6)).isSome = true := by decide +kernel
  have hq : (track {} 0 (upload.take 6)).map (fun x => decide (x.1.stack = [.processInput] ∧ x.1.c.st = .receivingHeaders ∧ (x.1.c.dev.map (·.inp.length)) = some 12 ∧ x.1.c.parser.nread = 30)) = some true := by
    decide +kernel
  obtain ⟨⟨s, cap⟩, e⟩ := Option.isSome_iff_exists.1 h
  rw [e] at hq
  obtain ⟨h1, h2, h3, h4⟩ := of_decide_eq_true (Option.some.inj hq)
  cases hd : s.c.dev with
  | none => rw [hd] at h3; cases h3
  | some d => rw [hd] at h3; exact ⟨s, cap, [], d, track_tracked .start e, h1, h2, hd, h4, Option.some.inj h3⟩

end Pillow.Memory
