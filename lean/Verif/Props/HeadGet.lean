import Verif.Props.Flow
import Verif.Props.Exact
import Verif.Model.HttpHandler
/-!
# C92: HEAD is answered with the head GET would get
-/
namespace Pillow.Props
open Pillow Pillow.Spec

/-- The same request with another method. -/
def SameButMethod (r r' : ReqView) : Prop :=
  r'.uri = r.uri ∧ r'.fragment = r.fragment ∧ r'.path = r.path ∧ r'.query = r.query ∧ r'.version = r.version ∧ r'.headers = r.headers ∧ r'.content = r.content

theorem headSpec_same {r r' : ReqView} {lenIn status : Int} {hs : Headers} {h h' : RespHead} (hm : SameButMethod r r') (h1 : HeadSpec r lenIn status hs h) (h2 : HeadSpec r' lenIn status hs h') :
    h' = h := by
  obtain ⟨-, -, -, -, hv, hh, -⟩ := hm
  have hl : h'.len = h.len := by rw [h1.len, h2.len]
  have hk : ClientKeeps r' ↔ ClientKeeps r := by unfold ClientKeeps; rw [hv, hh]
  have hc : h'.chunked = h.chunked := by rw [Bool.eq_iff_iff, h1.chunked, h2.chunked, hl, hv]
  have ha : h'.keepAlive = h.keepAlive := by rw [Bool.eq_iff_iff, h1.keepAlive, h2.keepAlive, hl, hc, hk]
  obtain ⟨c1, e1, b1⟩ := h1.bytes
  obtain ⟨c2, e2, b2⟩ := h2.bytes
  rw [hl, e1, Option.some.injEq] at e2
  subst e2
  have hb : h'.bytes = h.bytes := by
    have s1 : statusLine r' status = statusLine r status := by unfold statusLine; rw [hv]
    have s2 : ∀ k, connectionHeader r' k = connectionHeader r k := fun k => by unfold connectionHeader; rw [hv]
    rw [b1, b2, s1, s2, hl, hc, ha]
  have hs1 : h'.status = h.status := by rw [h1.code, h2.code]
  have hs2 : h'.headers = h.headers := by rw [h1.hdrs, h2.hdrs]
  cases h; cases h'
  simp_all

/-- **C92.** Two requests that differ only in that one is a HEAD, on any two connections: whatever response is passed to `writeResponse`, the very same head is written for both, the
content only for the other one, and both are complete. -/
theorem C92_writeResponse (s s' : Conf) (hr : Reach Proper s) (hr' : Reach Proper s') (he : s.inEnv = true) (he' : s'.inEnv = true) (hf : s.c.fault = none) (hf' : s'.c.fault = none)
    (hst : s.c.st = .sendingHeaders) (hst' : s'.c.st = .sendingHeaders) (hreq : SameButMethod s.c.req s'.c.req) (hm : s.c.req.method ≠ b!"HEAD") (hm' : s'.c.req.method = b!"HEAD")
    (status : Int) (hs : Headers) (ct : Bytes) (hcl : lastHeader hs b!"content-length" = none) (hl : (ct.length : Int) < 2147483648) :
    ∃ n t n' t' h, s.run (.call (.writeResponse status hs ct) :: taus n) = some t ∧ s'.run (.call (.writeResponse status hs ct) :: taus n') = some t' ∧
      t.c.log = s.c.log ++ [.head h] ++ (if ct = [] then [] else [.body ct]) ++ [.completed] ∧ t'.c.log = s'.c.log ++ [.head h] ++ [.completed] ∧ t.inEnv = true ∧ t'.inEnv = true := by
  obtain ⟨n, t, h, a1, a2, -, a4, a5⟩ := C18_writeResponse s hr he hf hst status hs ct hcl hl
  obtain ⟨n', t', h', b1, b2, -, b4, b5⟩ := C18_writeResponse s' hr' he' hf' hst' status hs ct hcl hl
  have := headSpec_same hreq a4 b4
  subst this
  refine ⟨n, t, n', t', h', a1, b1, ?_, ?_, a2, b2⟩
  · rw [a5]; simp [hm]
  · rw [b5]; simp [hm']

/-- **C92.** The same for `writeHeaders`, whatever length it declares or not (a length of 2 GiB modulo 4 GiB is the undefined case of C50). -/
theorem C92_writeHeaders (s s' : Conf) (hr : Reach Proper s) (hr' : Reach Proper s') (he : s.inEnv = true) (he' : s'.inEnv = true) (hf : s.c.fault = none) (hf' : s'.c.fault = none)
    (hst : s.c.st = .sendingHeaders) (hst' : s'.c.st = .sendingHeaders) (hreq : SameButMethod s.c.req s'.c.req) (status : Int) (hs : Headers) (k : Nat)
    (hl : ¬ ∃ m : Int, declaredLength (-1) hs = 2147483648 + 4294967296 * m) :
    ∃ t t' h, s.run [.call (.writeHeaders status hs), .tau k] = some t ∧ s'.run [.call (.writeHeaders status hs), .tau k] = some t' ∧
      t.c.log = s.c.log ++ [.head h] ∧ t'.c.log = s'.c.log ++ [.head h] := by
  obtain ⟨t, h, a1, a2, a3⟩ := (C23_writeHeaders_exactly s hr he hf hst status hs k).1 hl
  obtain ⟨t', h', b1, b2, b3⟩ := (C23_writeHeaders_exactly s' hr' he' hf' hst' status hs k).1 hl
  have := headSpec_same hreq a3 b3
  subst this
  exact ⟨t, t', h', a1, b1, a2, b2⟩

/-- **C92.** The file handler does the same for both. -/
theorem C92_file (fs : FileSystem) (dec md5 text : Bytes → Bytes) (pub : Bytes) (bufferSize : Nat) (r r' : ReqView) (h : SameButMethod r r') :
    fileHandle fs dec md5 text pub bufferSize r' = fileHandle fs dec md5 text pub bufferSize r := by
  unfold fileHandle
  rw [h.2.2.1, h.2.2.2.2.2.1]

/-- The hypotheses are met: a GET and a HEAD for the same path, on two connections. -/
example : ∃ s s', Reach Proper s ∧ Reach Proper s' ∧ s.inEnv = true ∧ s'.inEnv = true ∧ s.c.fault = none ∧ s'.c.fault = none ∧ s.c.st = .sendingHeaders ∧ s'.c.st = .sendingHeaders ∧
    SameButMethod s.c.req s'.c.req ∧ s.c.req.method = b!"GET" ∧ s'.c.req.method = b!"HEAD" ∧ s.c.req.headers ≠ [] := by
  let p (m : Bytes) : Conf → Bool := fun s => s.inEnv && s.c.fault == none && s.c.st == .sendingHeaders && s.c.req == { s.c.req with method := m, uri := b!"/a?b", fragment := [], path := b!"/a", query := b!"b", version := b!"HTTP/1.1", headers := [⟨b!"Host", b!"h"⟩], content := [] }
  obtain ⟨s, h1, h2⟩ := exists_of_endsIn (allowed := Proper) (ls := [.init, .recv b!"GET /a?b HTTP/1.1\r\nHost: h\r\n\r\n", .call .processInput] ++ taus 3) (p := p b!"GET") (by decide +kernel)
  obtain ⟨s', h1', h2'⟩ := exists_of_endsIn (allowed := Proper) (ls := [.init, .recv b!"HEAD /a?b HTTP/1.1\r\nHost: h\r\n\r\n", .call .processInput] ++ taus 3) (p := p b!"HEAD") (by decide +kernel)
  simp only [p, Bool.and_eq_true, beq_iff_eq] at h2 h2'
  obtain ⟨⟨⟨a1, a2⟩, a3⟩, a4⟩ := h2
  obtain ⟨⟨⟨b1, b2⟩, b3⟩, b4⟩ := h2'
  refine ⟨s, s', h1, h1', a1, b1, a2, b2, a3, b3, ?_, by rw [a4], by rw [b4], by rw [a4]; simp⟩
  rw [a4, b4]
  exact ⟨rfl, rfl, rfl, rfl, rfl, rfl, rfl⟩

end Pillow.Props
