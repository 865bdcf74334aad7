import Verif.Spec.Sockets
import Verif.Props.Server
import Verif.Props.Protocol
set_option linter.unusedSimpArgs false
set_option linter.unusedVariables false
/-!
# C87: the sockets of a server
-/
namespace Pillow.Props
open Pillow Pillow.Spec

/-- When a connection in use emits `closed`, it still has its device. -/
theorem closing_dev {s s' : Conf} {l : Label} (hr : Reach Gentle s) (hl : l ≠ .init) (hserv : Serving s.c.log)
    (hs : s.step l = some s') (hc : emitsClosed s s' = true) : s'.c.dev.isSome = true := by
  have hf : s.c.fault = none := by
    cases hfa : s.c.fault with
    | none => rfl
    | some f => simp [Conf.step, hfa] at hs
  have hgrow : ∃ f u, s'.c.log.length = s.c.log.length + 1 ∧ s'.c.log.getLast? = some (.closed f u) := by
    rcases step_one hl hs with e | ⟨ev, -, e⟩
    · simp [emitsClosed, e] at hc
    · simp only [emitsClosed, e, List.length_append, List.length_singleton, List.getLast?_append, List.getLast?_singleton,
        Option.some_or, Bool.and_eq_true] at hc
      cases ev <;> simp at hc
      rename_i f u
      exact ⟨f, u, by rw [e]; simp, by rw [e]; simp⟩
  obtain ⟨f, u, hlen, hlast⟩ := hgrow
  have hsame : ∀ {c : Conn}, c.log = s.c.log → c.log.length ≠ s.c.log.length + 1 := by intro c e; rw [e]; omega
  unfold Conf.step at hs
  rw [hf] at hs
  simp only [Option.isSome_none, Bool.false_eq_true, if_false] at hs
  cases l with
  | init => exact absurd rfl hl
  | tau k =>
    dsimp only at hs
    split at hs
    · cases hs
    · cases hs
    · rename_i i rest hne hst
      cases hs
      have := exec_log k i s.c
      rcases this with e | ⟨e, he, hev⟩
      · exact absurd hlen (hsame e)
      · dsimp only at hlast
        rw [he] at hlast
        simp only [List.getLast?_append, List.getLast?_singleton, Option.some_or, Option.some.injEq] at hlast
        subst hlast
        obtain ⟨rfl, hcl⟩ := hev
        simp only [exec, Conn.toClosed, hcl, if_false, Conn.emit]
        obtain ⟨ph, hruns⟩ := inv_runs hr
        rcases inv_reach (lo := false) hr with hcore | ⟨h, -⟩
        · refine hcore.dev ?_ hcl
          intro hun
          obtain ⟨ph', h1, h2⟩ := hcore.data
          rw [hst] at h2
          have hset : Settled true s.c ph' := by
            cases f with
            | true => exact h2.2
            | false => exact h2.2.1
          unfold Settled at hset
          rw [hun] at hset
          exact ((serving_iff h1).1 hserv).1 hset.1
        · rw [hf] at h; cases h
  | call a => dsimp only at hs; split at hs <;> cases hs; exact absurd hlen (hsame rfl)
  | ret => dsimp only at hs; split at hs <;> cases hs; exact absurd hlen (hsame rfl)
  | recv bs =>
    dsimp only at hs
    split at hs
    · split at hs <;> cases hs
      simp [Conn.emit] at hlast
    · cases hs
  | bytesWritten k =>
    dsimp only at hs
    split at hs
    · split at hs <;> cases hs
      exact absurd hlen (hsame rfl)
    · cases hs
  | readParams => dsimp only at hs; split at hs <;> cases hs; refine absurd hlen (hsame ?_); simp only [Conn.requestParams]; split <;> rfl
  | setParam n v => dsimp only at hs; split at hs <;> cases hs; refine absurd hlen (hsame ?_); simp only [Conn.setRequestParam, Conn.requestParams]; split <;> rfl
  | readDecoded d =>
    dsimp only at hs
    split at hs <;> cases hs
    refine absurd hlen (hsame ?_)
    simp only [Conn.readDecoded]
    repeat' split
    all_goals rfl

theorem put_conns (v : Server) (i : Nat) : (v.put i).conns = v.conns :=
  (shrink_spec (v.reserved.length + 1) v (Nat.lt_succ_self _)).1.conns

/-- What an event of a connection does to the connections of the server. -/
theorem conn_conns {v v' : Server} {i : Nat} {l : Label} (hs : v.step (.conn i l) = some v') :
    l ≠ .init ∧ ∃ s s', v.conns[i]? = some s ∧ s.step l = some s' ∧ v'.conns = v.conns.set i s' := by
  simp only [Server.step] at hs
  split at hs
  · cases hs
  · rename_i hl
    refine ⟨fun e => hl (.inl e), ?_⟩
    cases hci : v.conns[i]? with
    | none => rw [hci] at hs; cases hs
    | some s =>
      rw [hci] at hs
      dsimp only at hs
      cases hst : s.step l with
      | none => rw [hst] at hs; cases hs
      | some s' =>
        rw [hst] at hs
        simp only [Option.map_some, Option.some.injEq] at hs
        refine ⟨s, s', rfl, hst, ?_⟩
        rw [← hs]
        split
        · exact put_conns _ _
        · rfl

structure SockInv (x : Sockets) : Prop where
  server : SvInv x.server
  proper : ∀ o ∈ x.released, ∃ k, o = some k ∧ k < x.made
  once : x.released.Nodup
  held : ∀ i s, x.server.conns[i]? = some s → Serving s.c.log → ∃ k, x.of i = some k ∧ k < x.made ∧ some k ∉ x.released
  apart : ∀ i j k, Holds x i k → Holds x j k → i = j
  total : ∀ k, k < x.made → some k ∈ x.released ∨ ∃ i, Holds x i k

theorem of_given (x : Sockets) (v : Server) (n i k j : Nat) :
    ({ x with server := v, made := n, given := (i, k) :: x.given } : Sockets).of j = if j = i then some k else x.of j := by
  simp only [Sockets.of, List.find?_cons]
  by_cases h : i = j
  · subst h; simp
  · rw [beq_eq_false_iff_ne.2 h, if_neg (Ne.symm h)]

theorem sockinv_accept {x : Sockets} {v : Server} (h : SockInv x) (hv : x.server.step .accept = some v) :
    SockInv { x with server := v, made := x.made + 1, given := (x.server.take.1, x.made) :: x.given } := by
  obtain ⟨i, s', rfl, h1, h2, h3, h4, h5, h6⟩ := accept_takes h.server hv
  have hsv : SvInv v := svinv_step (l := .accept) h.server trivial hv
  have hidle : ∀ k, ¬ Holds x x.server.take.1 k := by
    rintro k ⟨s, e1, e2, -⟩
    rcases h6 with e | ⟨t, e, -, hn, -⟩
    · rw [e] at e1; cases e1
    · rw [e] at e1; cases e1; exact hn e2
  have hold : ∀ j k, Holds { x with server := v, made := x.made + 1, given := (x.server.take.1, x.made) :: x.given } j k ↔
      (j = x.server.take.1 ∧ k = x.made) ∨ (j ≠ x.server.take.1 ∧ Holds x j k) := by
    intro j k
    unfold Holds
    rw [of_given]
    dsimp only
    by_cases hj : j = x.server.take.1
    · subst hj
      simp only [h1, if_true, true_and, ne_eq, not_true_eq_false, false_and, or_false, Option.some.injEq]
      constructor
      · rintro ⟨_, _, _, e⟩; exact e.symm
      · intro e; exact ⟨s', rfl, h4, e.symm⟩
    · simp only [h5 j hj, hj, if_false, false_and, ne_eq, not_false_eq_true, true_and, false_or]
  refine ⟨hsv, ?_, h.once, ?_, ?_, ?_⟩
  · intro o ho
    obtain ⟨k, e, hk⟩ := h.proper o ho
    exact ⟨k, e, Nat.lt_succ_of_lt hk⟩
  · intro j s hj hserv
    rw [of_given]
    dsimp only at hj ⊢
    by_cases e : j = x.server.take.1
    · refine ⟨x.made, by simp [e], Nat.lt_succ_self _, ?_⟩
      intro hm
      obtain ⟨k, e, hk⟩ := h.proper _ hm
      cases e
      exact Nat.lt_irrefl _ hk
    · rw [h5 j e] at hj
      obtain ⟨k, k1, k2, k3⟩ := h.held j s hj hserv
      exact ⟨k, by simp [e, k1], Nat.lt_succ_of_lt k2, k3⟩
  · intro a b k ha hb
    have hlt : ∀ j, Holds x j k → k < x.made := by
      rintro j ⟨s, e1, e2, e3⟩
      obtain ⟨k', k1, k2, -⟩ := h.held j s e1 e2
      rw [e3] at k1; cases k1; exact k2
    rw [hold] at ha hb
    rcases ha with ⟨rfl, rfl⟩ | ⟨-, ha⟩ <;> rcases hb with ⟨rfl, e⟩ | ⟨-, hb⟩
    · rfl
    · exact absurd (hlt _ hb) (Nat.lt_irrefl _)
    · exact absurd (e ▸ hlt _ ha) (Nat.lt_irrefl _)
    · exact h.apart _ _ _ ha hb
  · intro k hk
    dsimp only at hk ⊢
    by_cases e : k = x.made
    · exact .inr ⟨_, (hold _ _).2 (.inl ⟨rfl, e⟩)⟩
    · rcases h.total k (by omega) with k1 | ⟨j, hj⟩
      · exact .inl k1
      · refine .inr ⟨j, (hold _ _).2 (.inr ⟨?_, hj⟩)⟩
        rintro rfl
        exact hidle k hj

theorem sockinv_conn {x : Sockets} {v : Server} {i : Nat} {l : Label} (h : SockInv x) (hp : Polite x.server (.conn i l))
    (hv : x.server.step (.conn i l) = some v) : SockInv { x with server := v, released := x.released ++ (x.closes i l).toList } := by
  obtain ⟨hl, s, s', hci, hst, hconns⟩ := conn_conns hv
  have hsv : SvInv v := svinv_step h.server hp hv
  obtain ⟨hne, hg⟩ := hp s hci
  obtain ⟨hr, hin⟩ := h.server.reach i s hci
  have hin : Ev.init ∈ s.c.log := by rcases hin with h | h; exact absurd h hne; exact h
  obtain ⟨-, k2, k3⟩ := conn_step hr hin hg hl hst
  have hlt : i < x.server.conns.length := (List.getElem?_eq_some_iff.1 hci).1
  have hget : ∀ j, v.conns[j]? = if i = j then some s' else x.server.conns[j]? := by
    intro j; rw [hconns, List.getElem?_set]; split <;> simp_all
  have hof : ∀ (y : List (Option Nat)) j, ({ x with server := v, released := y } : Sockets).of j = x.of j := fun _ _ => rfl
  cases hc : emitsClosed s s' with
  | false =>
    have e : x.closes i l = none := by simp [Sockets.closes, hci, hst, hc]
    have hiff := k3 hc
    rw [e]
    have hold : ∀ y j k, Holds { x with server := v, released := y } j k ↔ Holds x j k := by
      intro y j k
      unfold Holds
      rw [hof]
      dsimp only
      rw [hget]
      by_cases hj : i = j
      · subst hj; simp [hci, hiff]
      · simp [hj]
    refine ⟨hsv, by simpa using h.proper, by simpa using h.once, ?_, ?_, ?_⟩
    · intro j t hj hserv
      rw [hof]
      dsimp only at hj ⊢
      simp only [Option.toList_none, List.append_nil]
      rw [hget] at hj
      split at hj
      · rename_i e; subst e; cases hj
        exact h.held _ _ hci (hiff.1 hserv)
      · exact h.held _ _ hj hserv
    · intro a b k ha hb
      exact h.apart a b k ((hold _ _ _).1 ha) ((hold _ _ _).1 hb)
    · intro k hk
      simp only [Option.toList_none, List.append_nil, hold]
      exact h.total k hk
  | true =>
    obtain ⟨hserv, hnot⟩ := k2 hc
    have hdev := closing_dev hr hl hserv hst hc
    obtain ⟨m, m1, m2, m3⟩ := h.held i s hci hserv
    have e : x.closes i l = some (some m) := by simp [Sockets.closes, hci, hst, hc, hdev, m1]
    rw [e]
    have hold : ∀ y j k, Holds { x with server := v, released := y } j k ↔ j ≠ i ∧ Holds x j k := by
      intro y j k
      unfold Holds
      rw [hof]
      dsimp only
      rw [hget]
      by_cases hj : i = j
      · subst hj; simp [hnot]
      · simp [hj, Ne.symm hj]
    have hi : Holds x i m := ⟨s, hci, hserv, m1⟩
    refine ⟨hsv, ?_, ?_, ?_, ?_, ?_⟩
    · intro o ho
      dsimp only at ho ⊢
      rcases List.mem_append.1 ho with ho | ho
      · exact h.proper o ho
      · exact ⟨m, by simpa using ho, m2⟩
    · dsimp only
      rw [List.nodup_append]
      refine ⟨h.once, by simp, ?_⟩
      intro a ha b hb
      have : b = some m := by simpa using hb
      subst this
      rintro rfl
      exact m3 ha
    · intro j t hj hse
      rw [hof]
      dsimp only at hj ⊢
      rw [hget] at hj
      split at hj
      · rename_i e; subst e; cases hj
        exact absurd hse hnot
      · rename_i hij
        obtain ⟨k, k1, k2, k3⟩ := h.held _ _ hj hse
        refine ⟨k, k1, k2, ?_⟩
        simp only [Option.toList_some, List.mem_append, k3, List.mem_singleton, Option.some.injEq, false_or]
        rintro rfl
        exact hij (h.apart _ _ _ hi ⟨t, hj, hse, k1⟩)
    · intro a b k ha hb
      exact h.apart a b k ((hold _ _ _).1 ha).2 ((hold _ _ _).1 hb).2
    · intro k hk
      dsimp only at hk ⊢
      simp only [Option.toList_some, List.mem_append, List.mem_singleton, Option.some.injEq, hold]
      rcases h.total k hk with k1 | ⟨j, hj⟩
      · exact .inl (.inl k1)
      · by_cases e : j = i
        · subst e
          obtain ⟨_, _, _, q⟩ := hj
          rw [m1] at q; cases q
          exact .inl (.inr rfl)
        · exact .inr ⟨j, e, hj⟩

theorem sockinv {x : Sockets} (h : Supplied x) : SockInv x := by
  induction h with
  | start =>
    refine ⟨svinv_start, (by intro o ho; cases ho), List.nodup_nil, ?_, ?_, ?_⟩
    · intro i s hi hs
      have := List.eq_of_mem_replicate (List.mem_of_getElem? hi)
      subst this
      exact absurd hs serving_nil
    · rintro i j k ⟨_, _, _, e⟩; cases e
    · intro k hk; cases hk
  | refused x x' _ hs ih =>
    simp only [Sockets.step] at hs
    split at hs
    · cases hs
      refine ⟨ih.server, ?_, ?_, ?_, fun i j k hi hj => ih.apart i j k hi hj, ?_⟩
      · intro o ho
        dsimp only at ho ⊢
        rcases List.mem_append.1 ho with ho | ho
        · obtain ⟨k, e, hk⟩ := ih.proper o ho
          exact ⟨k, e, Nat.lt_succ_of_lt hk⟩
        · exact ⟨x.made, by simpa using ho, Nat.lt_succ_self _⟩
      · dsimp only
        rw [List.nodup_append]
        refine ⟨ih.once, by simp, ?_⟩
        intro a ha b hb
        have : b = some x.made := by simpa using hb
        subst this
        rintro rfl
        obtain ⟨k, e, hk⟩ := ih.proper _ ha
        cases e
        exact Nat.lt_irrefl _ hk
      · intro i s hi hse
        obtain ⟨k, k1, k2, k3⟩ := ih.held i s hi hse
        refine ⟨k, k1, Nat.lt_succ_of_lt k2, ?_⟩
        simp only [List.mem_append, k3, List.mem_singleton, Option.some.injEq, false_or]
        omega
      · intro k hk
        dsimp only at hk ⊢
        by_cases e : k = x.made
        · left; simp [e]
        · rcases ih.total k (by omega) with k1 | ⟨j, hj⟩
          · exact .inl (by simp [k1])
          · exact .inr ⟨j, hj⟩
    · cases hs
  | step x x' l _ hp hs ih =>
    cases l with
    | accept =>
      simp only [Sockets.step] at hs
      cases hv : x.server.step .accept with
      | none => rw [hv] at hs; cases hs
      | some v => rw [hv] at hs; cases hs; exact sockinv_accept ih hv
    | conn i l =>
      simp only [Sockets.step] at hs
      cases hv : x.server.step (.conn i l) with
      | none => rw [hv] at hs; cases hs
      | some v => rw [hv] at hs; cases hs; exact sockinv_conn ih hp hv

/-! ### C87 -/

/-- C87: the server calls `deleteLater` at most once for each socket, never through a null pointer, and never for a socket whose connection serves its client; and each
socket it created has been released unless exactly one connection serves the client at its other end. -/
theorem C87_sockets_partial (x : Sockets) (h : Supplied x) :
    x.released.Nodup ∧ none ∉ x.released ∧
    (∀ k, some k ∈ x.released ↔ k < x.made ∧ ∀ i, ¬ Holds x i k) ∧
    (∀ i j k, Holds x i k → Holds x j k → i = j) ∧
    ∀ i s, x.server.conns[i]? = some s → Serving s.c.log → ∃ k, k < x.made ∧ Holds x i k := by
  have hi := sockinv h
  refine ⟨hi.once, ?_, ?_, hi.apart, ?_⟩
  · intro hn
    obtain ⟨k, e, -⟩ := hi.proper _ hn
    cases e
  · intro k
    constructor
    · intro hk
      refine ⟨?_, ?_⟩
      · obtain ⟨k', e, hlt⟩ := hi.proper _ hk
        cases e; exact hlt
      · rintro i ⟨s, e1, e2, e3⟩
        obtain ⟨k', q1, -, q3⟩ := hi.held i s e1 e2
        rw [e3] at q1; cases q1
        exact q3 hk
    · rintro ⟨hk, hno⟩
      rcases hi.total k hk with k1 | ⟨i, hh⟩
      · exact k1
      · exact absurd hh (hno i)
  · intro i s h1 h2
    obtain ⟨k, q1, q2, -⟩ := hi.held i s h1 h2
    exact ⟨k, q2, s, h1, h2, q1⟩

/-- C87: a socket is released in the very step in which its connection emits `closed` (or in which the descriptor is refused). -/
theorem C87_when_partial (x x' : Sockets) (l : SLabel) (h : Supplied x) (hp : Polite x.server l) (hs : x.step (.ev l) = some x') :
    x'.released = x.released ∨ ∃ i m s s' k, l = .conn i m ∧ x.server.conns[i]? = some s ∧ s.step m = some s' ∧ emitsClosed s s' = true ∧
      Holds x i k ∧ x'.released = x.released ++ [some k] := by
  have hi := sockinv h
  cases l with
  | accept =>
    simp only [Sockets.step] at hs
    cases hv : x.server.step .accept with
    | none => rw [hv] at hs; cases hs
    | some v => rw [hv] at hs; cases hs; exact .inl rfl
  | conn i l =>
    simp only [Sockets.step] at hs
    cases hv : x.server.step (.conn i l) with
    | none => rw [hv] at hs; cases hs
    | some v =>
      rw [hv] at hs; cases hs
      obtain ⟨hl, s, s', hci, hst, hconns⟩ := conn_conns hv
      obtain ⟨hne, hg⟩ := hp s hci
      obtain ⟨hr, hin⟩ := hi.server.reach i s hci
      have hin : Ev.init ∈ s.c.log := by rcases hin with h | h; exact absurd h hne; exact h
      cases hc : emitsClosed s s' with
      | false => left; simp [Sockets.closes, hci, hst, hc]
      | true =>
        have hserv := ((conn_step hr hin hg hl hst).2.1 hc).1
        have hdev := closing_dev hr hl hserv hst hc
        obtain ⟨m, m1, -, -⟩ := hi.held i s hci hserv
        exact .inr ⟨i, l, s, s', m, rfl, hci, hst, hc, ⟨s, hci, hserv, m1⟩, by simp [Sockets.closes, hci, hst, hc, hdev, m1]⟩

def sockRun (x : Sockets) : List SockLabel → Option Sockets
  | [] => some x
  | l :: ls => (x.step l).bind (sockRun · ls)

theorem driven_run : ∀ (ls : List SockLabel) (x y : Sockets), Driven x → sockRun x ls = some y → Driven y
  | [], x, y, h, e => by simp [sockRun] at e; subst e; exact h
  | l :: ls, x, y, h, e => by
    simp only [sockRun] at e
    cases hs : x.step l with
    | none => rw [hs] at e; cases e
    | some x' => rw [hs] at e; exact driven_run ls x' y (.step x x' l h hs) e

/-- C87 is false of the code without the rule about `close()`: the application closes the connection while `requestCompleted` is being handled (the answer to an HTTP/1.0
request), and once more later; the server then calls `deleteLater` through a null pointer. -/
theorem C87_violation : ∃ x, Driven x ∧ x.released = [some 0, none] := by
  have h : (match sockRun {} (.ev .accept :: (((toCompletion b!"HTTP/1.0").drop 1 ++ [Label.call .close, .tau 0, .ret, .tau 0, .ret] ++ taus 6 ++ [Label.call .close, .tau 0] : List Label).map
      fun l => SockLabel.ev (.conn 24 l))) with
    | none => false
    | some x => x.released == [some 0, none]) = true := by decide +kernel
  split at h
  · cases h
  · rename_i x hx
    exact ⟨x, driven_run _ _ _ .start hx, by simpa using h⟩

/-- The application closes a connection while `requestCompleted` is being handled, and once more later, while another client is being served. -/
def closedTwice : List SockLabel :=
  .ev .accept :: .ev .accept :: (((toCompletion b!"HTTP/1.0").drop 1 ++ [Label.call .close, .tau 0, .ret, .tau 0, .ret] ++ taus 6 ++
    [Label.call .close, .tau 0, .ret, .tau 0, .ret] : List Label).map fun l => SockLabel.ev (.conn 24 l))

/-- Without that rule the pool then contains the connection object twice, and the next two clients get the same object: the second `initialize` takes it away from
the first client, whose socket nobody serves and nobody releases. -/
theorem C34_violation_shared : ∃ x y z, Driven x ∧ ¬ x.server.reserved.Nodup ∧ x.step (.ev .accept) = some y ∧ y.step (.ev .accept) = some z ∧
    Holds y 24 2 ∧ Holds z 24 3 ∧ some 2 ∉ z.released ∧ ∀ i, ¬ Holds z i 2 := by
  have h : (match sockRun {} closedTwice with
    | none => false
    | some x => !decide x.server.reserved.Nodup && (match x.step (.ev .accept) with
      | none => false
      | some y => y.given == [(24, 2), (23, 1), (24, 0)] && (y.server.conns[24]?).any (fun s => s.c.log.getLast? == some .init) && (match y.step (.ev .accept) with
        | none => false
        | some z => z.given == [(24, 3), (24, 2), (23, 1), (24, 0)] && z.released == [some 0, none] &&
            (z.server.conns[24]?).any (fun s => s.c.log.getLast? == some .init)))) = true := by decide +kernel
  have serves : ∀ (x : Sockets) k, (x.server.conns[24]?).any (fun s => s.c.log.getLast? == some .init) = true → x.of 24 = some k → Holds x 24 k := by
    intro x k h1 h2
    rw [Option.any_eq_true] at h1
    obtain ⟨s, h1, h3⟩ := h1
    rw [beq_iff_eq, List.getLast?_eq_some_iff] at h3
    obtain ⟨a, e⟩ := h3
    exact ⟨s, h1, by rw [e]; exact (serving_snoc _ _).2 (.inl rfl), h2⟩
  split at h
  · cases h
  · rename_i x hx
    rw [Bool.and_eq_true] at h
    obtain ⟨h1, h⟩ := h
    split at h
    · cases h
    · rename_i y hy
      simp only [Bool.and_eq_true] at h
      obtain ⟨⟨h2, h3⟩, h⟩ := h
      split at h
      · cases h
      · rename_i z hz
        simp only [Bool.and_eq_true] at h
        obtain ⟨⟨h4, h5⟩, h6⟩ := h
        rw [beq_iff_eq] at h2 h4 h5
        refine ⟨x, y, z, driven_run _ _ _ .start hx, by simpa using h1, hy, hz, serves y 2 h3 ?_, serves z 3 h6 ?_, by rw [h5]; simp, ?_⟩
        · simp [Sockets.of, h2]
        · simp [Sockets.of, h4]
        · rintro i ⟨_, _, _, e⟩
          simp only [Sockets.of, h4, List.find?_cons, List.find?_nil] at e
          by_cases e1 : i = 24
          · subst e1; simp at e
          · by_cases e2 : i = 23
            · subst e2; simp at e
            · have q1 : (24 == i) = false := by simp; omega
              have q2 : (23 == i) = false := by simp; omega
              simp [q1, q2] at e

def suppliedRun (x : Sockets) : List SockLabel → Option Sockets
  | [] => some x
  | .refused :: ls => (x.step .refused).bind (suppliedRun · ls)
  | .ev l :: ls => if Polite x.server l then (x.step (.ev l)).bind (suppliedRun · ls) else none

theorem supplied_run : ∀ (ls : List SockLabel) (x y : Sockets), Supplied x → suppliedRun x ls = some y → Supplied y
  | [], x, y, h, e => by simp [suppliedRun] at e; subst e; exact h
  | .refused :: ls, x, y, h, e => by
    simp only [suppliedRun] at e
    cases hs : x.step .refused with
    | none => rw [hs] at e; cases e
    | some x' => rw [hs] at e; exact supplied_run ls x' y (.refused x x' h hs) e
  | .ev l :: ls, x, y, h, e => by
    simp only [suppliedRun] at e
    split at e
    · rename_i hp
      cases hs : x.step (.ev l) with
      | none => rw [hs] at e; cases e
      | some x' => rw [hs] at e; exact supplied_run ls x' y (.step x x' l h hp hs) e
    · cases e

/-- The hypotheses are met: three clients come, one descriptor is refused, the second client leaves, a fifth comes and gets its connection object. -/
example : ∃ x, Supplied x ∧ x.made = 5 ∧ x.released = [some 3, some 1] ∧ x.of 23 = some 4 ∧ x.of 24 = some 0 := by
  have h : (match suppliedRun {} ([.ev .accept, .ev .accept, .ev .accept, .refused] ++ (closing 23).map .ev ++ [.ev .accept]) with
    | none => false
    | some x => x.made == 5 && x.released == [some 3, some 1] && x.of 23 == some 4 && x.of 24 == some 0) = true := by decide +kernel
  split at h
  · cases h
  · rename_i x hx
    simp only [Bool.and_eq_true, beq_iff_eq] at h
    exact ⟨x, supplied_run _ _ _ .start hx, h.1.1.1, h.1.1.2, h.1.2, h.2⟩

end Pillow.Props
