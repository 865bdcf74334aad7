import Verif.Props.Response
import Verif.Props.Requests
/-!
# Where the properties C05, C14, C22, C23 and C50 hold and where they do not

The partial theorems say that the property holds under a condition.  Here: what the code does in the remaining cases, and that the condition is the weakest.
-/
namespace Pillow.Props
open Pillow.Spec

/-! ## C05 -/

/-- C05: the canonical rendering is appended exactly for the values other than the most negative one, for which the behaviour is undefined. -/
theorem C05_exactly (bits base : Nat) (hb : 2 ≤ base) (hb' : base ≤ 16) (target : Bytes) (number : Int) (h : -(2 ^ (bits - 1) : Int) ≤ number) :
    (∃ r, appendNumber bits base target number = some (target ++ r) ∧ readInt base r = some number ∧ Canonical r) ↔ number ≠ -(2 ^ (bits - 1) : Int) := by
  constructor
  · rintro ⟨r, h1, -⟩ e
    unfold appendNumber at h1
    rw [if_pos e] at h1
    cases h1
  · intro hne
    exact C05_appendNumber_partial bits base hb hb' target number (by omega)

/-! ## C14 -/

/-- C14: what the accessors show is, for every request, what the client has sent, but for the uri of a target with an empty query: there the `?` is shown as NUL. -/
theorem C14_exactly (s : Conf) (h : Reach Proper s) (r : ReqView) (hr : r ∈ readys (epoch s.c.log)) :
    ∃ (hd : ReqHead) (content : Bytes), hd.Wf ∧ (∃ pre post, received (epoch s.c.log) = pre ++ hd.render ++ content ++ post) ∧
      ((∃ p, hd.target = .origin p (some []) ∧ hd.target.uri = p ++ b!"?" ∧ r = { hd.view content with uri := p ++ [0] }) ∨
        ((∀ p, hd.target ≠ .origin p (some [])) ∧ r = hd.view content)) := by
  obtain ⟨reqs, rest, h1, h2, -⟩ := C13_exact_requests s h
  rw [h2] at hr
  have key : ∀ {st : Bytes} {reqs : List (ReqHead × Bytes)} {rest : Bytes}, Requests st reqs rest → r ∈ shownAll reqs →
      ∃ (hd : ReqHead) (content : Bytes), hd.Wf ∧ (∃ pre post, st = pre ++ hd.render ++ content ++ post) ∧ r = hd.shown content := by
    intro st reqs rest hq
    induction hq with
    | nil => intro hr; simp [shownAll] at hr
    | cons hd content st reqs rest ha _ ih =>
      intro hr
      simp only [shownAll, List.map_cons, List.mem_cons] at hr
      rcases hr with rfl | hr
      · exact ⟨hd, content, ha.wf, ⟨[], st, by simp⟩, rfl⟩
      · obtain ⟨hd', c', k1, ⟨pre, post, k2⟩, k3⟩ := ih hr
        exact ⟨hd', c', k1, ⟨hd.render ++ content ++ pre, post, by rw [k2]; simp⟩, k3⟩
  obtain ⟨hd, content, k1, k2, k3⟩ := key h1 hr
  refine ⟨hd, content, k1, k2, ?_⟩
  unfold ReqHead.shown at k3
  split at k3
  · rename_i p ht
    exact Or.inl ⟨p, ht, by rw [ht]; simp [Target.uri], k3⟩
  · rename_i ht
    exact Or.inr ⟨fun p e => ht p e, k3⟩

/-! ## C22 -/

theorem readInt_letter (c : UInt8) (s : Bytes) (h : hexVal c = none) (h' : c ≠ 45) : readInt 10 (c :: s) = none := by
  have hn : readNat 10 (c :: s) = none := by
    unfold readNat
    rw [if_neg (by simp), List.foldl_cons]
    have : ∀ t : Bytes, t.foldl (fun (acc : Option Nat) c => do let a ← acc; let d ← hexVal c; if d < 10 then some (10 * a + d) else none) none = none := by
      intro t
      induction t with
      | nil => rfl
      | cons x t ih => rw [List.foldl_cons]; exact ih
    simp only [h, Option.bind_eq_bind, Option.bind_some, Option.bind_none]
    exact this s
  unfold readInt
  split
  · rename_i e; cases e; exact absurd rfl h'
  · rw [hn]; rfl

/-- C22: the status line is version, three digits code and reason exactly if the status code is one of those known to the library; otherwise
it is the version followed by `Internal Server Error`, without a code. -/
theorem C22_exactly (s : Conf) (hr : Reach Proper s) (a b : List Ev) (h : RespHead) (e : s.c.log = a ++ .head h :: b) (r : ReqView)
    (hreq : (readys a).getLast? = some r) :
    ((∃ code reason rest, code.length = 3 ∧ readInt 10 code = some h.status ∧ reason ≠ [] ∧
      h.bytes = r.version ++ b!" " ++ code ++ b!" " ++ reason ++ b!"\r\n" ++ rest) ↔ h.status ∈ rfcCodes) ∧
    (h.status ∉ rfcCodes → ∃ rest, h.bytes = r.version ++ b!" Internal Server Error\r\n" ++ rest) := by
  have hbad : h.status ∉ rfcCodes → ∃ rest, h.bytes = r.version ++ b!" Internal Server Error\r\n" ++ rest := by
    intro hn
    obtain ⟨lenIn, -, sp⟩ := head_in_log s hr a b h e r hreq
    obtain ⟨cl, h1, h2⟩ := sp.bytes
    have k := ((C43_table h.status).2 hn).1
    refine ⟨otherLines h.headers ++ cl ++ typeHeader h.headers h.len ++ connectionHeader r h.keepAlive ++ encodingHeader h.headers h.chunked ++ b!"\r\n", ?_⟩
    rw [h2]
    unfold statusLine statusText
    rw [k]
    have : (getStatusMessage 500).getD [] = b!"Internal Server Error" := by decide +kernel
    simp only [this]
    simp
  refine ⟨⟨fun ⟨code, reason, rest, h1, h2, h3, h4⟩ => ?_, fun hst => ?_⟩, hbad⟩
  · apply Classical.byContradiction
    intro hn
    obtain ⟨rest', h5⟩ := hbad hn
    rw [h4] at h5
    simp only [List.append_assoc, List.append_cancel_left_eq] at h5
    match code, h1 with
    | [x, y, z], _ =>
      simp only [List.cons_append, List.nil_append, List.cons.injEq, true_and] at h5
      rw [h5.1, readInt_letter _ _ (by decide) (by decide)] at h2
      cases h2
  · obtain ⟨code, reason, rest, h1, h2, h3, -, h5⟩ := C22_status_line_partial s hr a b h e r hreq hst
    exact ⟨code, reason, rest, h1, h2, h3, h5⟩

/-! ## C50 -/

/-- C50: a length is announced modulo 2^32, as a signed number; so the announcement is the length exactly if that is below 2 GiB. -/
theorem C50_exactly (s : Conf) (hr : Reach Proper s) (a b : List Ev) (h : RespHead) (e : s.c.log = a ++ .head h :: b) (r : ReqView)
    (hreq : (readys a).getLast? = some r) (hl : 0 ≤ h.len) :
    ∃ pre len post n, readInt 10 len = some n ∧ Canonical len ∧ h.bytes = pre ++ b!"Content-Length: " ++ len ++ b!"\r\n" ++ post ∧
      (∃ k : Int, n = h.len - 4294967296 * k) ∧ -2147483648 < n ∧ n < 2147483648 ∧ (n = h.len ↔ h.len < 2147483648) := by
  obtain ⟨lenIn, -, sp⟩ := head_in_log s hr a b h e r hreq
  obtain ⟨cl, h1, h2⟩ := sp.bytes
  unfold lengthLine at h1
  rw [if_pos (by omega)] at h1
  by_cases hmin : truncInt32 h.len = -2147483648
  · rw [hmin] at h1
    have : appendNumber 32 10 b!"Content-Length: " (-2147483648) = none := C05_most_negative 10 _
    rw [this] at h1
    cases h1
  · rw [appendNumber_eq _ _ _ _ (by simpa using hmin), Option.map_some, Option.some.injEq] at h1
    refine ⟨statusLine r h.status ++ otherLines h.headers, renderInt 10 (truncInt32 h.len),
      typeHeader h.headers h.len ++ connectionHeader r h.keepAlive ++ encodingHeader h.headers h.chunked ++ b!"\r\n", truncInt32 h.len,
      (readInt_renderInt 10 (by decide) (by decide) _).1, (readInt_renderInt 10 (by decide) (by decide) _).2, ?_, ?_⟩
    · rw [h2, ← h1]
      simp
    · unfold truncInt32 at hmin ⊢
      refine ⟨⟨(h.len + 2 ^ 31) / 2 ^ 32, by omega⟩, by omega, by omega, by omega⟩

/-- C23, C50: `writeHeaders` while a request is waiting for its response writes one head; the exception is a length of 2 GiB (modulo 4 GiB), for
which the behaviour is undefined. -/
theorem C23_writeHeaders_exactly (s : Conf) (hr : Reach Proper s) (he : s.inEnv = true) (hf : s.c.fault = none)
    (hst : s.c.st = .sendingHeaders) (status : Int) (hs : Headers) (k : Nat) :
    (¬ (∃ m : Int, declaredLength (-1) hs = 2147483648 + 4294967296 * m) →
      ∃ s' h, s.run [.call (.writeHeaders status hs), .tau k] = some s' ∧ s'.c.log = s.c.log ++ [.head h] ∧ HeadSpec s.c.req (-1) status hs h) ∧
    ((∃ m : Int, declaredLength (-1) hs = 2147483648 + 4294967296 * m) →
      ∃ s', s.run [.call (.writeHeaders status hs), .tau k] = some s' ∧ s'.c.fault = some .overflow ∧ s'.c.log = s.c.log) := by
  obtain ⟨ph, hruns, hne, hph⟩ := reach_phase hr he hf
  rcases hph with ⟨hset, hcore⟩ | ⟨-, e | ⟨e, -⟩⟩
  · obtain ⟨rfl, h2, h3, h4, h5, h6, h7⟩ := (settled_sendH hst).1 hset
    obtain ⟨d, hd⟩ := Option.isSome_iff_exists.1 (hcore.dev (by rw [hst]; simp) (by rw [hst]; simp))
    have hbuf : s.c.respBuf = [] := hcore.resp (inEnv_head he).2
    have hmin : truncInt32 (declaredLength (-1) hs) = -2147483648 ↔ ∃ m : Int, declaredLength (-1) hs = 2147483648 + 4294967296 * m := by
      generalize declaredLength (-1) hs = n
      unfold truncInt32
      constructor
      · intro h; exact ⟨(n - 2147483648) / 4294967296, by omega⟩
      · rintro ⟨m, rfl⟩; omega
    rw [← hmin]
    rw [run_call he hf]
    simp only [Call.instr, exec]
    unfold Conn.writeHeaders
    rw [if_neg (by simp [hst])]
    simp only [readView_valid h6, hbuf, h3, h4, h5]
    have sp := scan_spec hs { out := statusLine s.c.req status, len := -1 }
    constructor
    · intro hnm
      have hsome : (buildHead [] (s.c.req.version == b!"HTTP/1.1") s.c.req (-1) false status hs).isSome = true := by
        unfold buildHead
        simp only [List.nil_append]
        rw [sp.len]
        unfold lengthLine
        split
        · rw [appendNumber_eq _ _ _ _ (by simpa using hnm)]
          rfl
        · rfl
      obtain ⟨h, hh⟩ := Option.isSome_iff_exists.1 hsome
      rw [hh]
      simp only [Conn.write, hd]
      exact ⟨_, h, rfl, rfl, head_spec hh⟩
    · intro hm
      have hnone : buildHead [] (s.c.req.version == b!"HTTP/1.1") s.c.req (-1) false status hs = none := by
        unfold buildHead
        simp only [List.nil_append]
        rw [sp.len]
        have hne : declaredLength (-1) hs ≠ -1 := by
          intro h
          rw [h] at hm
          exact absurd hm (by decide)
        unfold lengthLine
        rw [if_pos hne, hm, C05_most_negative]
        rfl
      rw [hnone]
      exact ⟨_, rfl, rfl, rfl⟩
  · rw [hst] at e; cases e
  · rw [hst] at e; cases e

end Pillow.Props
