import Verif.Lemmas.ConnDoomed
import Verif.Spec.Response
set_option linter.unusedSimpArgs false
set_option linter.unusedVariables false
/-!
# Which views of the request are alive, and who reads them
-/
namespace Pillow.Live
open Pillow Pillow.Spec

/-- What is known about the instruction to be executed next. -/
structure Tops (i : Instr) (c : Conn) : Prop where
  recvContent : i = .recvContent → c.st = .receivingHeaders ∧ c.clen = 0
  sendHeaders : i = .sendHeaders → c.st = .receivingContent
  sendContent : i = .sendContent → c.st = .sendingHeaders
  rest : i = .completedRest → c.st ≠ .receivingContent ∧ c.st ≠ .sendingHeaders ∧ c.st ≠ .sendingContent
  views : c.st = .sendingHeaders ∨ c.st = .sendingContent → c.viewsValid = true

theorem settled_views {strict : Bool} {c : Conn} {ph : Phase} (h : Settled strict c ph) (hst : c.st = .sendingHeaders ∨ c.st = .sendingContent) :
    c.viewsValid = true := by
  unfold Settled at h
  rcases hst with e | e <;> rw [e] at h
  · exact h.2.2.2.2.2.1
  · obtain ⟨_, _, _, _, _, _, _, _, hv⟩ := h; exact hv

theorem data_views {c : Conn} {ph : Phase} {o : Option Instr} (h : Data c ph o) (hst : c.st = .sendingHeaders ∨ c.st = .sendingContent) :
    c.viewsValid = true := by
  cases o with
  | none => exact settled_views (strict := true) h hst
  | some i =>
    cases i with
    | recvContent => rcases hst with e | e <;> rw [h.1] at e <;> cases e
    | sendHeaders => rcases hst with e | e <;> rw [h.1] at e <;> cases e
    | errorResponse code => rcases h.1 with k | k <;> rcases hst with e | e <;> rw [k] at e <;> cases e
    | sendContent => exact h.2.2.1
    | completed => exact h.2.2.1
    | flushing => rcases h.1 with k | k | k <;> rcases hst with e | e <;> rw [k] at e <;> cases e
    | closed f => cases f with
      | false => exact settled_views (strict := true) h.2.1 hst
      | true => exact settled_views (strict := true) h.2 hst
    | processInput => exact settled_views (strict := false) h hst
    | writeHeaders s hs =>
      rcases h with h | ⟨-, -, h⟩
      · exact settled_views h hst
      · exact settled_views (c := { c with respLen := -1 }) h hst
    | _ => exact settled_views (strict := true) h hst

theorem tops {i : Instr} {c : Conn} {rest : List Instr} (h : LInv c (i :: rest)) (hf : c.fault = none) : Tops i c := by
  rcases h with h | h | h
  · obtain ⟨ph, -, hd⟩ := h.data
    refine ⟨?_, ?_, ?_, ?_, data_views hd⟩
    · rintro rfl; exact ⟨hd.1, hd.2.2.1⟩
    · rintro rfl; exact hd.1
    · rintro rfl; exact hd.1
    · rintro rfl
      have := h.sens
      unfold sensOk at this
      rw [if_neg (by simp)] at this
      refine ⟨fun e => ?_, fun e => ?_, fun e => ?_⟩ <;> rw [e] at this <;> simp [List.filter_cons, Instr.sens] at this
  · generalize hS : i :: rest = st at h
    cases h with
    | z0 rest' _ _ hst =>
      obtain ⟨rfl, rfl⟩ := List.cons.inj hS
      refine ⟨?_, ?_, ?_, ?_, ?_⟩ <;> simp [hst]
    | z1 _ _ _ _ hst _ hb =>
      subst hS
      have := hb i rfl
      refine ⟨?_, ?_, ?_, ?_, ?_⟩ <;> simp [hst] <;> rintro rfl <;> cases this
    | zf _ _ hst =>
      obtain ⟨rfl, rfl⟩ := List.cons.inj hS
      refine ⟨?_, ?_, ?_, ?_, ?_⟩ <;> simp [hst]
    | z2 _ _ hst _ _ hb =>
      subst hS
      have := hb i rfl
      refine ⟨?_, ?_, ?_, ?_, ?_⟩ <;> simp [hst] <;> rintro rfl <;> cases this
    | zp _ _ hst =>
      obtain ⟨rfl, rfl⟩ := List.cons.inj hS
      refine ⟨?_, ?_, ?_, ?_, ?_⟩ <;> simp [hst]
  · rw [Dead, hf] at h; cases h.1

/-! ### Who reads -/

theorem write_stale (c : Conn) (e : Ev) : (c.write e).staleRead = c.staleRead := by unfold Conn.write; split <;> rfl

theorem readView_stale (c : Conn) : c.readView.staleRead = (c.staleRead || !c.viewsValid) := by
  unfold Conn.readView; split <;> simp_all

/-- The instruction reads a field of the request in this state, and the view is dead. -/
inductive BadRead (c : Conn) : Instr → Prop where
  | sendContent : c.st ≠ .sendingContent → c.respLen ≠ 0 → c.viewsValid = false → BadRead c .sendContent
  | rest (ct : Bytes) : ct ≠ [] → c.viewsValid = false → BadRead c (.writeResponseRest ct)
  | writeHeaders (st : Int) (hs : Headers) : c.st = .sendingHeaders → c.viewsValid = false → BadRead c (.writeHeaders st hs)
  | writeContent (ct : Bytes) : c.st = .sendingContent → c.viewsValid = false → BadRead c (.writeContent ct)
  | sendHeaders : c.st ≠ .sendingHeaders → c.hdrN = c.refs.length → c.hdrValid = false → BadRead c .sendHeaders

theorem exec_stale (k : Nat) (i : Instr) (c : Conn) (h : (exec k i c).1.staleRead = true) : c.staleRead = true ∨ BadRead c i := by
  cases i with
  | env => exact .inl h
  | processInput =>
    simp only [exec, Conn.processInput] at h
    split at h
    · exact .inl h
    · split at h
      · exact .inl h
      · split at h <;> (try split at h) <;> (try split at h) <;> exact .inl h
  | recvContent =>
    simp only [exec, Conn.recvContent] at h
    split at h
    · exact .inl h
    · split at h
      · exact .inl h
      split at h
      · exact .inl h
      split at h
      · dsimp only at h
        split at h
        · left
          have : (Conn.write _ _).staleRead = true := h
          rw [write_stale] at this
          exact this
        · exact .inl h
      · exact .inl h
  | sendHeaders =>
    simp only [exec, Conn.sendHeaders] at h
    split at h
    · exact .inl h
    · rename_i hst
      simp only [Conn.emit, Bool.or_eq_true, Bool.not_eq_true', ite_not] at h
      split at h
      · rename_i hn
        rcases h with h | h
        · exact .inl h
        · exact .inr (.sendHeaders hst hn h)
      · rcases h with h | h
        · exact .inl h
        · cases h
  | sendContent =>
    simp only [exec, Conn.sendContent] at h
    split at h
    · exact .inl h
    · rename_i hst
      split at h
      · exact .inl h
      · rename_i hl
        have h : (Conn.readView { c with st := .sendingContent, respBuf := [] }).staleRead = true := by split at h <;> exact h
        rw [readView_stale] at h
        simp only [Bool.or_eq_true, Bool.not_eq_true'] at h
        rcases h with h | h
        · exact .inl h
        · exact .inr (.sendContent hst hl h)
  | sendContentRest => simp only [exec, Conn.sendContentRest] at h; split at h <;> exact .inl h
  | completed => simp only [exec, Conn.complete] at h; split at h <;> exact .inl h
  | completedRest => simp only [exec, Conn.completedRest] at h; split at h <;> exact .inl h
  | completedRest2 => simp only [exec, Conn.completedRest2, Conn.toReceivingHeaders] at h; split at h <;> exact .inl h
  | flush => simp only [exec, Conn.flush] at h; split at h <;> (try split at h) <;> exact .inl h
  | drain => simp only [exec, Conn.drain] at h; split at h <;> exact .inl h
  | drainRest => simp only [exec, Conn.drainRest] at h; split at h <;> (try split at h) <;> exact .inl h
  | flushing => simp only [exec, Conn.toFlushing] at h; split at h <;> exact .inl h
  | flushingRest => simp only [exec, Conn.flushingRest] at h; split at h <;> (try split at h) <;> exact .inl h
  | closed f => simp only [exec, Conn.toClosed] at h; split at h <;> exact .inl h
  | closedRest => exact .inl h
  | errorResponse code =>
    simp only [exec, Conn.errorResponse] at h
    split at h
    · exact .inl h
    · rw [show (Conn.write _ _ : Conn).staleRead = _ from write_stale _ _] at h; exact .inl h
  | writeResponse s hs ct => simp only [exec, Conn.writeResponse] at h; split at h <;> exact .inl h
  | writeResponseRest ct =>
    simp only [exec, Conn.writeResponseRest] at h
    split at h
    · exact .inl h
    · rename_i hne
      have h : c.readView.staleRead = true := by split at h <;> exact h
      rw [readView_stale] at h
      simp only [Bool.or_eq_true, Bool.not_eq_true'] at h
      rcases h with h | h
      · exact .inl h
      · exact .inr (.rest ct hne h)
  | writeHeaders s hs =>
    simp only [exec, Conn.writeHeaders] at h
    split at h
    · exact .inl h
    · rename_i hst
      have h : c.readView.staleRead = true := by
        split at h
        · exact h
        · rw [show (Conn.write _ _ : Conn).staleRead = _ from write_stale _ _] at h; exact h
      rw [readView_stale] at h
      simp only [Bool.or_eq_true, Bool.not_eq_true'] at h
      rcases h with h | h
      · exact .inl h
      · exact .inr (.writeHeaders s hs (Classical.not_not.1 hst) h)
  | writeContent ct =>
    simp only [exec, Conn.writeContent] at h
    split at h
    · exact .inl h
    rename_i hst
    split at h
    · exact .inl h
    split at h
    · exact .inl h
    split at h
    · have h : c.readView.staleRead = true := by
        split at h
        · exact h
        · split at h <;> split at h <;> (rw [show (Conn.write _ _ : Conn).staleRead = _ from write_stale _ _] at h; exact h)
      rw [readView_stale] at h
      simp only [Bool.or_eq_true, Bool.not_eq_true'] at h
      rcases h with h | h
      · exact .inl h
      · exact .inr (.writeContent ct (Classical.not_not.1 hst) h)
    · exact .inl h
  | endContent =>
    simp only [exec, Conn.endContent] at h
    split at h
    · exact .inl h
    split at h
    · exact .inl h
    dsimp only at h
    split at h
    · rw [show (Conn.write _ _ : Conn).staleRead = _ from write_stale _ _] at h; exact .inl h
    · exact .inl h

/-! ### The header views -/

/-- While a request is handled the header views are alive; while its content is received they are alive only until the
buffer may grow, and afterwards one of them is missing. -/
structure HdrLive (s : Conf) : Prop where
  busy : s.c.st = .sendingHeaders ∨ s.c.st = .sendingContent → s.c.hdrValid = true
  recv : s.c.st = .receivingContent → s.c.hdrN ≠ s.c.refs.length ∨ (s.c.hdrValid = true ∧ (s.stack.head? = some .sendHeaders ∨ s.stack.head? = some .flushing ∨ ∃ code, s.stack.head? = some (.errorResponse code)))

theorem write_hdr (c : Conn) (e : Ev) : (c.write e).hdrValid = c.hdrValid ∧ (c.write e).hdrN = c.hdrN ∧ (c.write e).refs = c.refs ∧ (c.write e).st = c.st := by
  unfold Conn.write; split <;> exact ⟨rfl, rfl, rfl, rfl⟩

theorem readView_hdr (c : Conn) : c.readView.hdrValid = c.hdrValid ∧ c.readView.hdrN = c.hdrN ∧ c.readView.refs = c.refs ∧ c.readView.st = c.st := by
  unfold Conn.readView; split <;> exact ⟨rfl, rfl, rfl, rfl⟩

theorem contentLengthIndex_some {buf : Bytes} {refs : List FieldRef} {i : Nat} (h : contentLengthIndex buf refs = some i) : refs ≠ [] := by
  rintro rfl
  simp [contentLengthIndex] at h

theorem HdrLive.away {c : Conn} {stack : List Instr} (h1 : c.st ≠ .sendingHeaders) (h2 : c.st ≠ .sendingContent) (h3 : c.st ≠ .receivingContent) :
    HdrLive ⟨c, stack⟩ := ⟨fun h => (h.elim h1 h2).elim, fun h => (h3 h).elim⟩

def Same (c c' : Conn) : Prop := c'.hdrValid = c.hdrValid ∧ c'.hdrN = c.hdrN ∧ c'.refs = c.refs ∧ c'.st = c.st

theorem Same.refl (c : Conn) : Same c c := ⟨rfl, rfl, rfl, rfl⟩

theorem Same.trans {a b c : Conn} (h1 : Same a b) (h2 : Same b c) : Same a c :=
  ⟨h2.1.trans h1.1, h2.2.1.trans h1.2.1, h2.2.2.1.trans h1.2.2.1, h2.2.2.2.trans h1.2.2.2⟩

theorem HdrLive.same {c c' : Conn} {st st' : List Instr} (h : HdrLive ⟨c, st⟩) (hs : Same c c')
    (ht : st.head? ≠ some .sendHeaders ∧ st.head? ≠ some .flushing ∧ ∀ code, st.head? ≠ some (.errorResponse code)) : HdrLive ⟨c', st'⟩ := by
  obtain ⟨e1, e2, e3, e4⟩ := hs
  refine ⟨fun hst => ?_, fun hst => ?_⟩
  · show c'.hdrValid = true
    rw [e1]; exact h.busy (by rw [← e4]; exact hst)
  · rcases h.recv (by rw [← e4]; exact hst) with k | ⟨-, k | k | ⟨code, k⟩⟩
    · left
      show c'.hdrN ≠ c'.refs.length
      rw [e2, e3]; exact k
    · exact absurd k ht.1
    · exact absurd k ht.2.1
    · exact absurd k (ht.2.2 code)

/-- The instructions that leave the header views and the state alone. -/
theorem exec_same (k : Nat) (i : Instr) (c : Conn)
    (hi : i ≠ .processInput ∧ i ≠ .recvContent ∧ i ≠ .sendHeaders ∧ i ≠ .sendContent ∧ i ≠ .completed ∧ i ≠ .completedRest ∧ i ≠ .completedRest2 ∧
      i ≠ .flushing ∧ ∀ f, i ≠ .closed f) : Same c (exec k i c).1 := by
  cases i with
  | processInput | recvContent | sendHeaders | sendContent | completed | completedRest | completedRest2 | flushing => simp at hi
  | closed f => simp at hi
  | env => exact .refl c
  | sendContentRest => simp only [exec, Conn.sendContentRest]; split <;> exact .refl c
  | flush => simp only [exec, Conn.flush]; split <;> (try split) <;> exact .refl c
  | drain => simp only [exec, Conn.drain]; split <;> exact .refl c
  | drainRest => simp only [exec, Conn.drainRest]; split <;> (try split) <;> exact .refl c
  | flushingRest => simp only [exec, Conn.flushingRest]; split <;> (try split) <;> exact .refl c
  | closedRest => exact .refl c
  | errorResponse code => simp only [exec, Conn.errorResponse]; split; exact .refl c; exact write_hdr _ _
  | writeResponse s hs ct => simp only [exec, Conn.writeResponse]; split <;> exact .refl c
  | writeResponseRest ct => simp only [exec, Conn.writeResponseRest]; split; exact .refl c; split <;> exact readView_hdr c
  | writeHeaders s hs =>
    simp only [exec, Conn.writeHeaders]
    split
    · exact .refl c
    · split
      · exact readView_hdr c
      · exact Same.trans (readView_hdr c) (write_hdr _ _)
  | writeContent ct =>
    simp only [exec, Conn.writeContent]
    split
    · exact .refl c
    split
    · exact .refl c
    split
    · exact .refl c
    split
    · split
      · exact readView_hdr c
      · generalize hx : (Conn.write _ _ : Conn) = x
        have : Same c x := by rw [← hx]; exact Same.trans (readView_hdr c) (write_hdr _ _)
        split <;> exact this
    · exact .refl c
  | endContent =>
    simp only [exec, Conn.endContent]
    split
    · exact .refl c
    split
    · exact .refl c
    dsimp only
    split
    · exact write_hdr _ _
    · exact .refl c

theorem hdrLive_exec {k : Nat} {i : Instr} {c : Conn} {rest : List Instr} (ht : Tops i c) (h : HdrLive ⟨c, i :: rest⟩) :
    HdrLive ⟨(exec k i c).1, (exec k i c).2 ++ rest⟩ := by
  cases i with
  | processInput =>
    simp only [exec, Conn.processInput]
    split
    · exact h.same (.refl c) (by simp)
    · rename_i hst
      split
      · exact h.same (.refl c) (by simp)
      · rename_i d _
        by_cases hr : c.st = .receivingHeaders
        · rw [if_pos (show (c.fill d).st = .receivingHeaders from hr)]
          have e : ((c.fill d).parse).st = .receivingHeaders := hr
          split
          · exact .away (by rw [e]; simp) (by rw [e]; simp) (by rw [e]; simp)
          · split <;> exact .away (by rw [e]; simp) (by rw [e]; simp) (by rw [e]; simp)
        · rw [if_neg (show ¬ (c.fill d).st = .receivingHeaders from hr)]
          have hc : c.st = .receivingContent := by
            by_cases hc : c.st = .receivingContent
            · exact hc
            · exact absurd ⟨hr, hc⟩ hst
          have hne : c.hdrN ≠ c.refs.length := by
            rcases h.recv hc with k | ⟨-, k | k | ⟨code, k⟩⟩
            · exact k
            · cases k
            · cases k
            · cases k
          have : ∀ st, HdrLive ⟨c.fill d, st⟩ := fun st =>
            ⟨fun k => (by rw [show (c.fill d).st = c.st from rfl, hc] at k; rcases k with k | k <;> cases k), fun _ => .inl hne⟩
          split <;> exact this _
  | recvContent =>
    obtain ⟨hst, hcl⟩ := ht.recvContent rfl
    simp only [exec, Conn.recvContent]
    rw [if_neg (by rw [hst]; simp)]
    split
    · exact ⟨fun k => (by rcases k with k | k <;> cases k), fun _ => .inr ⟨rfl, .inr (.inr ⟨_, rfl⟩)⟩⟩
    split
    · exact ⟨fun k => (by rcases k with k | k <;> cases k), fun _ => .inr ⟨rfl, .inr (.inr ⟨_, rfl⟩)⟩⟩
    split
    · rename_i hpos
      have hne : c.refs ≠ [] := by
        cases hidx : contentLengthIndex c.buf c.refs with
        | some i => exact contentLengthIndex_some hidx
        | none =>
          rw [hidx] at hpos
          simp [Conn.announced, Conn.setup, hcl] at hpos
      have hlt : c.refs.length - 1 ≠ c.refs.length := by
        have := List.length_pos_iff.2 hne
        omega
      dsimp only
      split
      · generalize hx : (Conn.write _ _ : Conn) = x
        have hw : x.st = .receivingContent ∧ x.hdrN = c.refs.length ∧ x.refs = c.refs := by
          rw [← hx]
          exact ⟨(write_hdr _ _).2.2.2, (write_hdr _ _).2.1, (write_hdr _ _).2.2.1⟩
        refine ⟨fun k => ?_, fun _ => .inl ?_⟩
        · rcases k with k | k <;> rw [show Conn.st { x with hdrN := _, hdrValid := false } = x.st from rfl, hw.1] at k <;> cases k
        · show x.hdrN - 1 ≠ x.refs.length
          rw [hw.2.1, hw.2.2]; exact hlt
      · exact ⟨fun k => (by rcases k with k | k <;> cases k), fun _ => .inl hlt⟩
    · exact ⟨fun k => (by rcases k with k | k <;> cases k), fun _ => .inr ⟨rfl, .inl rfl⟩⟩
  | sendHeaders =>
    have hst := ht.sendHeaders rfl
    simp only [exec, Conn.sendHeaders]
    rw [if_neg (by rw [hst]; simp)]
    have hv : (if c.hdrN ≠ c.refs.length then ({ c with st := .sendingHeaders } : Conn).setup else { c with st := .sendingHeaders }).hdrValid = true := by
      split
      · rfl
      · rename_i hn
        rcases h.recv hst with k | k
        · exact absurd k hn
        · exact k.1
    have hs : (if c.hdrN ≠ c.refs.length then ({ c with st := .sendingHeaders } : Conn).setup else { c with st := .sendingHeaders }).st = .sendingHeaders := by
      split <;> rfl
    refine ⟨fun _ => hv, fun k => ?_⟩
    rw [show Conn.st _ = CState.sendingHeaders from hs] at k
    cases k
  | sendContent =>
    have hst := ht.sendContent rfl
    have hv : c.hdrValid = true := h.busy (.inl hst)
    simp only [exec, Conn.sendContent]
    rw [if_neg (by rw [hst]; simp)]
    split
    · exact ⟨fun _ => hv, fun k => by cases k⟩
    · obtain ⟨r1, -, -, r4⟩ := readView_hdr { c with st := .sendingContent, respBuf := [] }
      split <;> exact ⟨fun _ => r1.trans hv, fun k => by rw [r4] at k; cases k⟩
  | completed =>
    simp only [exec, Conn.complete]
    split
    · exact h.same (.refl c) (by simp)
    · exact .away (by simp [Conn.emit]) (by simp [Conn.emit]) (by simp [Conn.emit])
  | completedRest =>
    obtain ⟨a1, a2, a3⟩ := ht.rest rfl
    simp only [exec, Conn.completedRest]
    split <;> exact .away a2 a3 a1
  | completedRest2 =>
    simp only [exec, Conn.completedRest2, Conn.toReceivingHeaders]
    split
    · exact h.same (.refl c) (by simp)
    · exact .away (by simp) (by simp) (by simp)
  | flushing =>
    simp only [exec, Conn.toFlushing]
    split
    · rename_i e
      exact .away (by rw [e]; simp) (by rw [e]; simp) (by rw [e]; simp)
    · exact .away (by simp) (by simp) (by simp)
  | closed f =>
    simp only [exec, Conn.toClosed]
    split
    · exact h.same (.refl c) (by simp)
    · exact .away (by simp [Conn.emit]) (by simp [Conn.emit]) (by simp [Conn.emit])
  | errorResponse code =>
    simp only [exec, Conn.errorResponse]
    split
    · rename_i e
      exact .away (by rw [e]; simp) (by rw [e]; simp) (by rw [e]; simp)
    · obtain ⟨e1, e2, e3, e4⟩ := write_hdr c (.errorReply code)
      refine ⟨fun hst => ?_, fun hst => ?_⟩
      · show (c.write _).hdrValid = true
        rw [e1]; exact h.busy (by rw [← e4]; exact hst)
      · rcases h.recv (by rw [← e4]; exact hst) with k | ⟨k, -⟩
        · left
          show (c.write _).hdrN ≠ (c.write _).refs.length
          rw [e2, e3]; exact k
        · exact .inr ⟨e1.trans k, .inr (.inl rfl)⟩
  | env => exact h.same (exec_same k _ c (by simp)) (by simp)
  | sendContentRest => exact h.same (exec_same k _ c (by simp)) (by simp)
  | flush => exact h.same (exec_same k _ c (by simp)) (by simp)
  | drain => exact h.same (exec_same k _ c (by simp)) (by simp)
  | drainRest => exact h.same (exec_same k _ c (by simp)) (by simp)
  | flushingRest => exact h.same (exec_same k _ c (by simp)) (by simp)
  | closedRest => exact h.same (exec_same k _ c (by simp)) (by simp)
  | writeResponse s hs ct => exact h.same (exec_same k _ c (by simp)) (by simp)
  | writeResponseRest ct => exact h.same (exec_same k _ c (by simp)) (by simp)
  | writeHeaders s hs => exact h.same (exec_same k _ c (by simp)) (by simp)
  | writeContent ct => exact h.same (exec_same k _ c (by simp)) (by simp)
  | endContent => exact h.same (exec_same k _ c (by simp)) (by simp)

/-- The moves of foreign code leave the header views and the state alone. -/
theorem step_same {s s' : Conf} {l : Label} (hs : s.step l = some s') (hl : ∀ k, l ≠ .tau k) (hi : l ≠ .init) :
    Same s.c s'.c ∧ s.inEnv = true := by
  unfold Conf.step at hs
  split at hs
  · cases hs
  cases l with
  | tau k => exact absurd rfl (hl k)
  | init => exact absurd rfl hi
  | call a => dsimp only at hs; split at hs <;> cases hs; rename_i h; exact ⟨.refl _, h⟩
  | ret =>
    dsimp only at hs
    split at hs
    · rename_i rest heq
      cases hs
      exact ⟨.refl _, by unfold Conf.inEnv; rw [heq]⟩
    · cases hs
  | recv bs =>
    dsimp only at hs
    split at hs
    · rename_i h
      split at hs <;> cases hs
      exact ⟨.refl _, h⟩
    · cases hs
  | bytesWritten k =>
    dsimp only at hs
    split at hs
    · rename_i h
      split at hs <;> cases hs
      exact ⟨.refl _, h⟩
    · cases hs
  | readParams =>
    dsimp only at hs; split at hs <;> cases hs; rename_i h
    refine ⟨?_, h⟩
    unfold Conn.requestParams; split <;> exact .refl _
  | setParam n v =>
    dsimp only at hs; split at hs <;> cases hs; rename_i h
    refine ⟨?_, h⟩
    unfold Conn.setRequestParam Conn.requestParams; split <;> exact .refl _
  | readDecoded x =>
    dsimp only at hs; split at hs <;> cases hs; rename_i h
    refine ⟨?_, h⟩
    cases x <;> simp only [Conn.readDecoded] <;> split <;> exact .refl _

theorem env_head {s : Conf} (h : s.inEnv = true) : s.stack.head? ≠ some .sendHeaders ∧ s.stack.head? ≠ some .flushing ∧ ∀ code, s.stack.head? ≠ some (.errorResponse code) := by
  rcases (inEnv_iff s).1 h with e | ⟨rest, e⟩ <;> rw [e] <;> simp

theorem tau_step {s s' : Conf} {k : Nat} (hs : s.step (.tau k) = some s') : s.c.fault = none ∧ ∃ i rest, s.stack = i :: rest ∧ s' = ⟨(exec k i s.c).1, (exec k i s.c).2 ++ rest⟩ := by
  unfold Conf.step at hs
  split at hs
  · cases hs
  rename_i hf
  refine ⟨by simpa using hf, ?_⟩
  dsimp only at hs
  split at hs
  · cases hs
  · cases hs
  · rename_i i rest _ heq
    cases hs
    exact ⟨i, rest, heq, rfl⟩

theorem hdrLive_reach {s : Conf} (h : Reach Proper s) : HdrLive s := by
  induction h with
  | start => exact .away (by simp) (by simp) (by simp)
  | step s s' l hr hp hs ih =>
    by_cases hl : ∃ k, l = .tau k
    · obtain ⟨k, rfl⟩ := hl
      obtain ⟨hf, i, rest, heq, rfl⟩ := tau_step hs
      have hi := linv_reach hr
      rw [heq] at hi
      have ih : HdrLive ⟨s.c, i :: rest⟩ := by rw [← heq]; exact ih
      exact hdrLive_exec (tops hi hf) ih
    · by_cases hini : l = .init
      · subst hini
        unfold Conf.step at hs
        split at hs
        · cases hs
        dsimp only at hs
        split at hs <;> cases hs
        have e : s.c.initialize.st = .receivingHeaders := by
          simp only [Conn.initialize, Conn.toReceivingHeaders, Conn.emit]; split <;> simp_all
        exact .away (by rw [e]; simp) (by rw [e]; simp) (by rw [e]; simp)
      · obtain ⟨hsame, henv⟩ := step_same hs (fun k e => hl ⟨k, e⟩) hini
        exact ih.same hsame (env_head henv)

end Pillow.Live
