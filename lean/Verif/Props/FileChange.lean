import Verif.Spec.FileChange
import Verif.Props.File
set_option linter.unusedSimpArgs false
set_option linter.unusedVariables false
/-!
# C88: files that change while they are sent
-/
namespace Pillow.Props
open Pillow Pillow.Spec

theorem next_read {x : Transfer} {p : Nat} {chunk : Bytes} {x' : Transfer} (h : x.next p = some (chunk, x')) :
    ∃ n, 0 < n ∧ chunk = (x.content.drop x.pos).take n ∧ chunk.length = n ∧ x' = { x with pos := x.pos + n } ∧ x.pos + n ≤ x.content.length ∧ p + n ≤ x.bufferSize := by
  by_cases hp : x.pos ≤ x.content.length
  · obtain ⟨n, -, h1, h2, h3, h4, h5, h6⟩ := next_some h hp
    exact ⟨n, h1, h2, h3, h4, h5, h6⟩
  · exfalso
    simp only [Transfer.next] at h
    split at h
    · cases h
    · rename_i h1
      rw [if_neg] at h
      · cases h
      · split <;> omega

theorem alters_reach {first : Bytes} {bufferSize : Nat} {a : List Ev} {h : RespHead} {vs : List Bytes} {x : Xfer}
    (hx : Alters first bufferSize a h vs x) : Reach Proper x.s := by
  induction hx with
  | start s hr _ _ _ _ => exact hr
  | change vs x v _ ih => exact ih
  | other vs x l s' q _ hp _ hs _ _ ih => exact .step _ _ _ ih hp hs
  | skip vs x q _ _ _ _ ih => exact ih
  | payload vs x q d chunk t' s' k hx he hf _ _ _ _ hrun ih =>
    have st1 : x.s.step (.call (.writeContent chunk)) = some ⟨x.s.c, .writeContent chunk :: x.s.stack⟩ := by simp [Conf.step, hf, he, Call.instr]
    simp only [Conf.run, st1, Option.bind_some] at hrun
    cases h2 : Conf.step ⟨x.s.c, .writeContent chunk :: x.s.stack⟩ (.tau k) with
    | none => rw [h2] at hrun; cases hrun
    | some s2 =>
      rw [h2] at hrun
      cases hrun
      exact .step _ _ _ (.step _ _ _ ih (fun e => by cases e) st1) (fun e => by cases e) h2

theorem alters_present {first : Bytes} {bufferSize : Nat} {a : List Ev} {h : RespHead} {vs : List Bytes} {x : Xfer}
    (hx : Alters first bufferSize a h vs x) : vs.getLast? = some x.t.content := by
  induction hx with
  | start => rfl
  | change vs x v _ ih => simp
  | other vs x l s' q _ hp _ hs _ _ ih => exact ih
  | skip vs x q _ _ _ _ ih => exact ih
  | payload vs x q d chunk t' s' k hx he hf _ _ _ hn hrun ih =>
    obtain ⟨n, -, -, -, rfl, -⟩ := next_read hn
    exact ih

/-- A response with a declared length, as far as it has got. -/
theorem declared_progress {s : Conf} (hr : Reach Proper s) {a b d : List Ev} {h : RespHead} (hl : 0 ≤ h.len) (e : s.c.log = a ++ .head h :: (b ++ d)) (hb : NotEnded b)
    (hreq : ∃ r, (readys a).getLast? = some r ∧ r.method ≠ b!"HEAD") :
    ((contentOf b).length : Int) ≤ h.len ∧ ((∃ d', d = .completed :: d') → ((contentOf b).length : Int) = h.len) := by
  obtain ⟨-, ph, hruns⟩ := reach_log hr
  obtain ⟨r, k1, ⟨lenIn, st, hs', hl', hbh⟩, -, k4⟩ := head_split hruns e
  obtain ⟨r0, k5, k6⟩ := hreq
  rw [k1] at k5; cases k5
  have hch : h.chunked = false := by
    cases hc : h.chunked with
    | false => rfl
    | true => have := (buildHead_facts hbh).2 hc; omega
  obtain ⟨m, p1, p2⟩ := k4.append
  obtain ⟨hle, st⟩ := writing_path r h _ p1 hb
  rcases st with ⟨rfl, -, -, st, -⟩ | ⟨rfl, k | k | ⟨k, -⟩⟩
  · refine ⟨hle.bound hl, ?_⟩
    · rintro ⟨d', rfl⟩
      cases p2 with
      | cons _ _ _ _ _ hn _ => cases hn with | completedOpen _ _ _ k _ _ => omega
  · exact absurd k k6
  · omega
  · rw [hch] at k; cases k

structure AlterOk (a : List Ev) (h : RespHead) (vs : List Bytes) (x : Xfer) : Prop where
  get : ∃ r, (readys a).getLast? = some r ∧ r.method ≠ b!"HEAD"
  progress : ∃ b d, x.s.c.log = a ++ .head h :: (b ++ d) ∧ NotEnded b ∧
    (d = [] ∧ NoWrites x.s.stack ∨ (∃ d', d = .completed :: d') ∨ ∃ f u d', d = .closed f u :: d') ∧
    ((∀ v ∈ vs, (v.length : Int) ≤ h.len) → (contentOf b).length = x.t.pos ∧ ∀ p, p < x.t.pos → ∃ v ∈ vs, v[p]? = (contentOf b)[p]?)

theorem alters_ok {first : Bytes} {bufferSize : Nat} {a : List Ev} {h : RespHead} {vs : List Bytes} {x : Xfer} (hl : 0 ≤ h.len)
    (hx : Alters first bufferSize a h vs x) : AlterOk a h vs x := by
  induction hx with
  | start s hr he hf hlog hq =>
    have hreq : ∃ r, (readys a).getLast? = some r ∧ r.method ≠ b!"HEAD" := by
      obtain ⟨h1, -, -, -, h5, -⟩ := writing_state hr he hf (a := a) (b := []) hlog (by intro e he; cases he)
      exact ⟨_, h1, h5⟩
    exact ⟨hreq, [], [], by simpa using hlog, (by intro e he; cases he), .inl ⟨rfl, hq⟩, fun _ => ⟨by simp [Transfer.create, contentOf], fun p hp => absurd hp (Nat.not_lt_zero _)⟩⟩
  | change vs x v _ ih =>
    obtain ⟨hreq, b, d, hlog, hne, hd, hv⟩ := ih
    refine ⟨hreq, b, d, hlog, hne, hd, fun hle => ?_⟩
    obtain ⟨h1, h2⟩ := hv fun w hw => hle w (by simp [hw])
    refine ⟨h1, fun p hp => ?_⟩
    obtain ⟨w, hw, e⟩ := h2 p hp
    exact ⟨w, by simp [hw], e⟩
  | other vs x l s' q hx hp hw hs _ _ ih =>
    obtain ⟨hreq, b, d, hlog, hne, hd, hv⟩ := ih
    refine ⟨hreq, ?_⟩
    rcases hd with ⟨rfl, hq⟩ | hd
    · rw [List.append_nil] at hlog
      obtain ⟨hq', es, hes, hnc⟩ := step_quiet hq (hw ⟨b, hlog, hne⟩) hs
      obtain ⟨e1, d, rfl, hn1, hd⟩ := split_ended es
      have hc1 : contentOf e1 = [] := noContent_content fun e he => hnc e (by simp [he])
      have hnb : NotEnded (b ++ e1) := by
        intro e he
        rcases List.mem_append.1 he with he | he
        · exact hne e he
        · exact hn1 e he
      refine ⟨b ++ e1, d, by rw [hes, hlog]; simp, hnb, ?_, by rw [contentOf_append, hc1, List.append_nil]; exact hv⟩
      rcases hd with rfl | hd
      · exact .inl ⟨rfl, hq'⟩
      · exact .inr hd
    · obtain ⟨es, hes⟩ := step_grows hs
      refine ⟨b, d ++ es, by rw [hes, hlog]; simp, hne, .inr ?_, hv⟩
      rcases hd with ⟨d', rfl⟩ | ⟨f, u, d', rfl⟩
      · exact .inl ⟨d' ++ es, rfl⟩
      · exact .inr ⟨f, u, d' ++ es, rfl⟩
  | skip vs x q hx _ _ _ ih => exact ⟨ih.get, ih.progress⟩
  | payload vs x q d chunk t' s' k hx he hf hq hc hd hn hrun ih =>
    have hpres := alters_present hx
    obtain ⟨hreq, b, d0, hlog, hne, hd0, hv⟩ := ih
    obtain ⟨n, hn2, rfl, hn4, rfl, hn5, hn6⟩ := next_read hn
    have hreach := alters_reach hx
    have hmem : x.t.content ∈ vs := List.mem_of_getLast? hpres
    rcases hd0 with ⟨rfl, hqs⟩ | ⟨d', rfl⟩ | ⟨f, u, d', rfl⟩
    · rw [List.append_nil] at hlog
      have hw := C18_writeContent x.s hreach he hf a b h hlog hne hl ((x.t.content.drop x.t.pos).take n) k
      have hstack : NoWrites s'.stack := by
        rw [run_call he hf] at hrun
        simp only [Conf.run, Option.some.injEq] at hrun
        rw [← hrun]
        refine quiet_append.2 ⟨?_, hqs⟩
        simp only [Call.instr, exec, Conn.writeContent]
        repeat' split
        all_goals simp [NoWrites]
      by_cases hfit : ((contentOf b).length : Int) + ((x.t.content.drop x.t.pos).take n).length ≤ h.len
      · obtain ⟨s1, h1, h2⟩ := hw.2 hfit (by intro e; rw [e] at hn4; simp at hn4; omega)
        rw [hrun] at h1
        cases h1
        refine ⟨hreq, b ++ [.body ((x.t.content.drop x.t.pos).take n)], [], by rw [h2, hlog]; simp, ?_, .inl ⟨rfl, hstack⟩, ?_⟩
        · intro e he
          rcases List.mem_append.1 he with he | he
          · exact hne e he
          · cases List.mem_singleton.1 he; simp
        · intro hle
          obtain ⟨e1, e2⟩ := hv hle
          have ec : contentOf (b ++ [.body ((x.t.content.drop x.t.pos).take n)]) = contentOf b ++ (x.t.content.drop x.t.pos).take n := by
            rw [contentOf_append]; simp [contentOf, Ev.content]
          rw [ec]
          refine ⟨by rw [List.length_append, e1, hn4], fun p hp => ?_⟩
          by_cases hpp : p < x.t.pos
          · obtain ⟨v, hv1, hv2⟩ := e2 p hpp
            exact ⟨v, hv1, by rw [hv2, List.getElem?_append_left (by omega)]⟩
          · refine ⟨x.t.content, hmem, ?_⟩
            dsimp only at hp
            rw [List.getElem?_append_right (by omega), List.getElem?_take, if_pos (by omega), List.getElem?_drop, e1]
            congr 1; omega
      · have h1 := hw.1 (by omega)
        rw [hrun] at h1
        cases h1
        refine ⟨hreq, b, [], by rw [List.append_nil]; exact hlog, hne, .inl ⟨rfl, hqs⟩, ?_⟩
        intro hle
        exfalso
        have := hle _ hmem
        have := (hv hle).1
        omega
    · obtain ⟨es, hes⟩ : ∃ es, s'.c.log = x.s.c.log ++ es := by
        have st1 : x.s.step (.call (.writeContent ((x.t.content.drop x.t.pos).take n))) = some ⟨x.s.c, .writeContent ((x.t.content.drop x.t.pos).take n) :: x.s.stack⟩ := by
          simp [Conf.step, hf, he, Call.instr]
        simp only [Conf.run, st1, Option.bind_some] at hrun
        cases h2 : Conf.step ⟨x.s.c, .writeContent ((x.t.content.drop x.t.pos).take n) :: x.s.stack⟩ (.tau k) with
        | none => rw [h2] at hrun; cases hrun
        | some s2 =>
          rw [h2] at hrun
          cases hrun
          have := step_grows h2
          exact this
      refine ⟨hreq, b, .completed :: d' ++ es, by rw [hes, hlog]; simp, hne, .inr (.inl ⟨_, rfl⟩), ?_⟩
      intro hle
      exfalso
      have h0 := hle _ hmem
      have h1 := (hv hle).1
      have := (declared_progress hreach hl hlog hne hreq).2 ⟨d', rfl⟩
      omega
    · exact absurd (by simp) (hc _ hlog f u)

/-! ### C88 -/

/-- C88: whatever happens to the file, no more content is sent than announced, and the response is completed only when as much has been sent. -/
theorem C88_amount (first : Bytes) (bufferSize : Nat) (a : List Ev) (h : RespHead) (hl : h.len = first.length) (vs : List Bytes) (x : Xfer)
    (hx : Alters first bufferSize a h vs x) :
    ∃ b d, x.s.c.log = a ++ .head h :: (b ++ d) ∧ NotEnded b ∧ (d = [] ∨ (∃ d', d = .completed :: d') ∨ ∃ f u d', d = .closed f u :: d') ∧
      (contentOf b).length ≤ first.length ∧ ((∃ d', d = .completed :: d') → (contentOf b).length = first.length) := by
  obtain ⟨hreq, b, d, hlog, hne, hd, -⟩ := alters_ok (by omega) hx
  obtain ⟨h1, h2⟩ := declared_progress (alters_reach hx) (by omega) hlog hne hreq
  refine ⟨b, d, hlog, hne, ?_, by omega, fun k => by have := h2 k; omega⟩
  rcases hd with ⟨h, -⟩ | h
  · exact .inl h
  · exact .inr h

/-- C88: as long as the file has not become longer than it was, every byte of the content is one that the file had at that position, at some time since
the head was written. -/
theorem C88_bytes_partial (first : Bytes) (bufferSize : Nat) (a : List Ev) (h : RespHead) (hl : h.len = first.length) (vs : List Bytes) (x : Xfer)
    (hx : Alters first bufferSize a h vs x) (hle : ∀ v ∈ vs, v.length ≤ first.length) :
    ∃ b d, x.s.c.log = a ++ .head h :: (b ++ d) ∧ NotEnded b ∧ (d = [] ∨ (∃ d', d = .completed :: d') ∨ ∃ f u d', d = .closed f u :: d') ∧
      ((∃ d', d = .completed :: d') → (contentOf b).length = first.length) ∧
      ∀ p, p < (contentOf b).length → ∃ v ∈ vs, v[p]? = (contentOf b)[p]? := by
  obtain ⟨hreq, b, d, hlog, hne, hd, hv⟩ := alters_ok (by omega) hx
  obtain ⟨h1, h2⟩ := declared_progress (alters_reach hx) (by omega) hlog hne hreq
  obtain ⟨e1, e2⟩ := hv fun v hv => by have := hle v hv; omega
  refine ⟨b, d, hlog, hne, ?_, fun k => by have := h2 k; omega, fun p hp => e2 p (by omega)⟩
  rcases hd with ⟨h, -⟩ | h
  · exact .inl h
  · exact .inr h

/-! #### Concrete histories -/

inductive Act where
  /-- Something happens to the connection. -/
  | lab (l : Label)
  /-- A queued call of `writeNextPayload`. -/
  | payload
  /-- The file is changed. -/
  | change (v : Bytes)

def sentB (s s' : Conf) : Bool := match s.c.dev, s'.c.dev with
  | some d, some d' => decide (d'.pending < d.pending)
  | _, _ => false

theorem sentB_iff (s s' : Conf) : sentB s s' = true ↔ Sent s s' := by
  unfold sentB Sent
  split
  · rename_i d d' h1 h2
    simp [h1, h2]
  · rename_i h
    constructor
    · intro h; cases h
    · rintro ⟨d, d', h1, h2, -⟩; exact absurd h2 (h d d' h1)

def quietLabel : Label → Bool
  | .init => false
  | .call _ => false
  | _ => true

def Act.run (x : Xfer) : Act → Option Xfer
  | .lab l => if quietLabel l then (x.s.step l).map fun s' => ⟨s', x.t, if sentB x.s s' then x.queued + 1 else x.queued⟩ else none
  | .change v => some ⟨x.s, { x.t with content := v }, x.queued⟩
  | .payload =>
    match x.queued, x.s.c.dev with
    | q + 1, some d =>
      if x.s.inEnv && x.s.c.fault.isNone && x.s.c.log.all (fun e => match e with | .closed _ _ => false | _ => true) then
        match x.t.next d.pending with
        | none => some ⟨x.s, x.t, q⟩
        | some (chunk, t') => (x.s.run [.call (.writeContent chunk), .tau 0]).map fun s' => ⟨s', t', q⟩
      else none
    | _, _ => none

def Act.version : Act → List Bytes
  | .change v => [v]
  | _ => []

theorem act_alters {first : Bytes} {bufferSize : Nat} {a : List Ev} {h : RespHead} {vs : List Bytes} {x y : Xfer} (act : Act)
    (hx : Alters first bufferSize a h vs x) (he : act.run x = some y) : Alters first bufferSize a h (vs ++ act.version) y := by
  cases act with
  | change v => simp only [Act.run, Option.some.injEq] at he; subst he; exact .change vs x v hx
  | lab l =>
    simp only [Act.version, List.append_nil]
    simp only [Act.run] at he
    split at he
    · rename_i hq
      cases hs : x.s.step l with
      | none => rw [hs] at he; cases he
      | some s' =>
        rw [hs] at he
        simp only [Option.map_some, Option.some.injEq] at he
        subst he
        refine .other vs x l s' _ hx ?_ ?_ hs ?_ ?_
        · rintro rfl; cases hq
        · rintro - c rfl; cases hq
        · intro h; rw [if_pos ((sentB_iff _ _).2 h)]
        · intro h; rw [if_neg (mt (sentB_iff _ _).1 h)]; exact .inl rfl
    · cases he
  | payload =>
    simp only [Act.version, List.append_nil]
    simp only [Act.run] at he
    split at he
    · rename_i q d hq hd
      split at he
      · rename_i hc
        simp only [Bool.and_eq_true, Option.isNone_iff_eq_none, List.all_eq_true] at hc
        obtain ⟨⟨hc1, hc2⟩, hc3⟩ := hc
        split at he
        · rename_i hn
          simp only [Option.some.injEq] at he
          subst he
          exact .skip vs x q hx hc1 hq (fun d' hd' => by rw [hd] at hd'; cases hd'; exact hn)
        · rename_i chunk t' hn
          cases hr : x.s.run [.call (.writeContent chunk), .tau 0] with
          | none => rw [hr] at he; cases he
          | some s' =>
            rw [hr] at he
            simp only [Option.map_some, Option.some.injEq] at he
            subst he
            refine .payload vs x q d chunk t' s' 0 hx hc1 hc2 hq ?_ hd hn hr
            intro b hb f u hm
            have := hc3 (.closed f u) (by rw [hb]; simp [hm])
            cases this
      · cases he
    · cases he

def actsRun (x : Xfer) : List Act → Option Xfer
  | [] => some x
  | a :: as => (a.run x).bind (actsRun · as)

theorem acts_alters {first : Bytes} {bufferSize : Nat} {a : List Ev} {h : RespHead} : ∀ (acts : List Act) {vs : List Bytes} {x y : Xfer},
    Alters first bufferSize a h vs x → actsRun x acts = some y → Alters first bufferSize a h (vs ++ (acts.map Act.version).flatten) y
  | [], vs, x, y, hx, he => by simp only [actsRun, Option.some.injEq] at he; subst he; simpa using hx
  | act :: acts, vs, x, y, hx, he => by
    simp only [actsRun] at he
    cases hr : act.run x with
    | none => rw [hr] at he; cases he
    | some x' =>
      rw [hr] at he
      have := acts_alters acts (act_alters act hx hr) he
      simpa [List.append_assoc] using this

/-- A client has asked for a file of 600 bytes; the head has been written. -/
def sixHundred : List Label :=
  [.init, .recv b!"GET /f HTTP/1.1\r\n\r\n", .call .processInput] ++ taus 3 ++ [.call (.writeHeaders 200 [⟨b!"Content-Length", b!"600"⟩])] ++ taus 3

def letters (n : Nat) (c : Byte) : Bytes := List.replicate n c

/-- The file that was asked for. -/
def asked : Bytes := letters 600 97

theorem letters_length (n : Nat) (c : Byte) : (letters n c).length = n := List.length_replicate ..
theorem asked_length : asked.length = 600 := letters_length _ _
theorem letters_get (n : Nat) (c : Byte) (p : Nat) (h : p < n) : (letters n c)[p]? = some c := by
  unfold letters; rw [List.getElem?_replicate, if_pos h]

def headOf : List Ev → Option (List Ev × RespHead × List Ev)
  | [] => none
  | .head h :: b => some ([], h, b)
  | e :: l => (headOf l).map fun r => (e :: r.1, r.2)

theorem headOf_some : ∀ {l a b : List Ev} {h : RespHead}, headOf l = some (a, h, b) → l = a ++ .head h :: b
  | [], a, b, h, e => by cases e
  | e :: l, a, b, h, he => by
    unfold headOf at he
    split at he
    · cases he
    · rename_i hl; simp only [Option.some.injEq, Prod.mk.injEq] at he hl; cases hl; obtain ⟨rfl, rfl, rfl⟩ := he; rfl
    · rename_i hne hl
      cases hl
      cases hr : headOf l with
      | none => rw [hr] at he; cases he
      | some r =>
        obtain ⟨a', h', b'⟩ := r
        rw [hr] at he
        simp only [Option.map_some, Option.some.injEq, Prod.mk.injEq] at he
        obtain ⟨rfl, rfl, rfl⟩ := he
        rw [headOf_some hr]; rfl

/-- Check of a history: `p` gets the declared length, the events after the head, and the result. -/
def checked (acts : List Act) (p : List Ev → Xfer → Bool) : Bool :=
  match Conf.runIf Proper {} sixHundred with
  | none => false
  | some s => s.inEnv && s.c.fault.isNone && (s.stack == [.env]) && (match headOf s.c.log with
    | none => false
    | some (a, h, b) => b.isEmpty && (h.len == 600) && (match actsRun ⟨s, Transfer.create asked 512, 1⟩ acts with
      | none => false
      | some x => p (x.s.c.log.drop (a.length + 1)) x))

theorem checked_spec {acts : List Act} {p : List Ev → Xfer → Bool} (hc : checked acts p = true) :
    ∃ (a : List Ev) (h : RespHead) (x : Xfer), h.len = (asked.length : Int) ∧ Alters asked 512 a h (asked :: (acts.map Act.version).flatten) x ∧
      ∃ b, x.s.c.log = a ++ .head h :: b ∧ p b x = true := by
  unfold checked at hc
  split at hc
  · cases hc
  rename_i s hs
  rw [Bool.and_eq_true] at hc
  obtain ⟨h1, hc⟩ := hc
  simp only [Bool.and_eq_true, Option.isNone_iff_eq_none, beq_iff_eq] at h1
  split at hc
  · cases hc
  rename_i a h b hh
  rw [Bool.and_eq_true] at hc
  obtain ⟨h2, hc⟩ := hc
  simp only [Bool.and_eq_true, List.isEmpty_iff, beq_iff_eq] at h2
  obtain ⟨rfl, hlen⟩ := h2
  split at hc
  · cases hc
  rename_i x hx
  have hlog := headOf_some hh
  have h0 : Alters asked 512 a h [asked] ⟨s, Transfer.create asked 512, 1⟩ :=
    .start s (reach_runIf Proper _ _ _ .start hs) h1.1.1 h1.1.2 hlog (by rw [h1.2]; intro i hi; cases List.mem_singleton.1 hi; simp)
  have hal := acts_alters acts h0 hx
  obtain ⟨-, b, d, hl, -⟩ := alters_ok (by rw [hlen]; decide) hal
  refine ⟨a, h, x, by rw [hlen, asked_length]; rfl, by simpa using hal, b ++ d, hl, ?_⟩
  rw [hl] at hc
  have e : (a ++ Ev.head h :: (b ++ d)).drop (a.length + 1) = b ++ d := by
    rw [← List.drop_drop, List.drop_left]; rfl
  rw [e] at hc
  exact hc

def notEndedB (b : List Ev) : Bool := b.all fun e => match e with | .completed => false | .closed _ _ => false | _ => true

theorem notEndedB_iff {b : List Ev} (h : notEndedB b = true) : NotEnded b := by
  intro e he
  have := List.all_eq_true.1 h e he
  constructor
  · rintro rfl; cases this
  · rintro f u rfl; cases this

/-- C88 is false of the code for files that grow: the file of 600 bytes is only appended to; the transfer reads past its announced end, that piece is refused, and what
has been appended meanwhile is sent in its place.  The response is complete for the client, and its bytes from position 446 on never were there in the file. -/
theorem C88_violation : ∃ (a : List Ev) (h : RespHead) (vs : List Bytes) (x : Xfer) (b : List Ev), h.len = (asked.length : Int) ∧ Alters asked 512 a h vs x ∧ (∀ v ∈ vs, asked <+: v) ∧
    x.s.c.log = a ++ .head h :: (b ++ [.completed]) ∧ NotEnded b ∧ (contentOf b).length = 600 ∧
    ∀ p, 446 ≤ p → p < 600 → ∀ v ∈ vs, v[p]? ≠ (contentOf b)[p]? := by
  obtain ⟨a, h, x, h1, h2, b, h3, h4⟩ := checked_spec
    (acts := [.payload, .lab .ret, .lab (.bytesWritten 256), .lab (.bytesWritten 256), .change (asked ++ letters 200 98), .payload,
      .change (asked ++ letters 200 98 ++ letters 154 99), .payload, .lab (.tau 0)])
    (p := fun b x => (b == [.body (letters 446 97), .body (letters 154 99), .completed])) (by decide +kernel)
  rw [beq_iff_eq] at h4
  refine ⟨a, h, _, x, [.body (letters 446 97), .body (letters 154 99)], h1, h2, ?_, by rw [h3, h4]; rfl, ?_, by decide +kernel, ?_⟩
  · intro v hv
    simp [Act.version] at hv
    rcases hv with rfl | rfl | rfl
    · exact List.prefix_refl _
    · exact ⟨_, rfl⟩
    · exact ⟨_, rfl⟩
  · exact notEndedB_iff rfl
  · intro p hp1 hp2 v hv
    have e1 : (contentOf [.body (letters 446 97), .body (letters 154 99)])[p]? = some 99 := by
      have : contentOf [.body (letters 446 97), .body (letters 154 99)] = letters 446 97 ++ letters 154 99 := by simp [contentOf, Ev.content]
      rw [this, List.getElem?_append_right (by rw [letters_length]; omega), letters_get _ _ _ (by rw [letters_length]; omega)]
    have e2 : v[p]? = some 97 := by
      have hpre : asked <+: v := by
        simp [Act.version] at hv
        rcases hv with rfl | rfl | rfl
        · exact List.prefix_refl _
        · exact ⟨_, rfl⟩
        · exact ⟨_, rfl⟩
      obtain ⟨t, rfl⟩ := hpre
      rw [List.getElem?_append_left (by rw [asked_length]; omega)]
      exact letters_get _ _ _ (by omega)
    rw [e1, e2]; decide

/-- And a transfer can come to a halt with the response unfinished and the connection open, both when the file has grown and when it has become shorter. -/
theorem C88_violation_stuck : (∃ (a : List Ev) (h : RespHead) (vs : List Bytes) (x : Xfer), h.len = (asked.length : Int) ∧ Alters asked 512 a h vs x ∧ (∀ v ∈ vs, asked <+: v) ∧ Stuck a h x) ∧
    ∃ (a : List Ev) (h : RespHead) (vs : List Bytes) (x : Xfer), h.len = (asked.length : Int) ∧ Alters asked 512 a h vs x ∧ (∀ v ∈ vs, v <+: asked) ∧ Stuck a h x := by
  have stuck : ∀ {a h x b}, x.s.c.log = a ++ .head h :: b →
      (x.s.stack == [] && (match x.s.c.dev with | some d => d.pending == 0 | none => false) && x.queued == 0 && notEndedB b) = true → Stuck a h x := by
    intro a h x b hb hs
    simp only [Bool.and_eq_true, beq_iff_eq] at hs
    obtain ⟨⟨⟨s1, s2⟩, s3⟩, s4⟩ := hs
    refine ⟨s1, ?_, s3, b, hb, notEndedB_iff s4⟩
    split at s2
    · rename_i d hd; exact ⟨d, hd, by simpa using s2⟩
    · cases s2
  constructor
  · obtain ⟨a, h, x, h1, h2, b, h3, h4⟩ := checked_spec
      (acts := [.payload, .lab .ret, .lab (.bytesWritten 512), .change (asked ++ letters 200 98), .payload])
      (p := fun b x => x.s.stack == [] && (match x.s.c.dev with | some d => d.pending == 0 | none => false) && x.queued == 0 && notEndedB b) (by decide +kernel)
    refine ⟨a, h, _, x, h1, h2, ?_, stuck h3 h4⟩
    intro v hv
    simp [Act.version] at hv
    rcases hv with rfl | rfl
    · exact List.prefix_refl _
    · exact ⟨_, rfl⟩
  · obtain ⟨a, h, x, h1, h2, b, h3, h4⟩ := checked_spec
      (acts := [.payload, .lab .ret, .lab (.bytesWritten 512), .change (letters 200 97), .payload])
      (p := fun b x => x.s.stack == [] && (match x.s.c.dev with | some d => d.pending == 0 | none => false) && x.queued == 0 && notEndedB b) (by decide +kernel)
    refine ⟨a, h, _, x, h1, h2, ?_, stuck h3 h4⟩
    intro v hv
    simp [Act.version] at hv
    rcases hv with rfl | rfl
    · exact List.prefix_refl _
    · exact ⟨letters 400 97, by decide +kernel⟩

/-- The hypotheses of `C88_bytes_partial` are met: the file is overwritten after 446 bytes have been sent, and the response is completed with bytes of both versions. -/
example : ∃ (a : List Ev) (h : RespHead) (vs : List Bytes) (x : Xfer) (b : List Ev), h.len = (asked.length : Int) ∧ Alters asked 512 a h vs x ∧ (∀ v ∈ vs, v.length ≤ asked.length) ∧
    x.s.c.log = a ++ .head h :: b ∧ b = [.body (letters 446 97), .body (letters 154 98), .completed] := by
  obtain ⟨a, h, x, h1, h2, b, h3, h4⟩ := checked_spec
    (acts := [.payload, .lab .ret, .lab (.bytesWritten 512), .change (letters 600 98), .payload, .lab (.tau 0)])
    (p := fun b x => (b == [.body (letters 446 97), .body (letters 154 98), .completed])) (by decide +kernel)
  rw [beq_iff_eq] at h4
  refine ⟨a, h, _, x, b, h1, h2, ?_, h3, h4⟩
  intro v hv
  simp [Act.version] at hv
  rcases hv with rfl | rfl
  · exact Nat.le_refl _
  · rw [letters_length, asked_length]; exact Nat.le_refl _

end Pillow.Props
