import Verif.Lemmas.RespParser
/-!
# C35, C54: the response parser and the segmentation of its input; its assertions
-/
namespace Pillow.Props
open Pillow Pillow.Spec

/-- **C54.** Whatever is injected into a response parser, no assertion of the bundled parser fails. -/
theorem C54_no_assertion {r : RespParser} (h : Used r) : r.p.bad = false := (used_safe h).1.1

/-- A response, used below. -/
def demoReply : Bytes := b!"HTTP/1.1 200 OK\r\nA: b\r\nTransfer-Encoding: chunked\r\n\r\n3\r\nabc\r\n0\r\n\r\n"

example : ∃ r : RespParser, Used r ∧ r.d.hooks = [.begin, .headersComplete 200 [⟨b!"A", b!"b"⟩, ⟨b!"Transfer-Encoding", b!"chunked"⟩],
    .complete 200 [⟨b!"A", b!"b"⟩, ⟨b!"Transfer-Encoding", b!"chunked"⟩] b!"abc"] :=
  ⟨(({} : RespParser).inject demoReply).1, .inject _ .new, by decide +kernel⟩

/-- **C35.** The calls of the virtual functions, with what the accessors show during them, and whether there is an error, do not depend
on how the bytes are divided; without error the parser is in the same state, so all accessors show the same. -/
theorem C35_segmentation {r : RespParser} (h : Used r) {segs segs' : List Bytes} (hs : segs.flatten = segs'.flatten) :
    (deliverAll r segs).d.hooks = (deliverAll r segs').d.hooks ∧ (deliverAll r segs).hasError = (deliverAll r segs').hasError ∧
    ((deliverAll r segs).hasError = false → deliverAll r segs = deliverAll r segs') := by
  obtain ⟨h1, h2⟩ := used_safe h
  have a := deliverAll_flatten segs r h1 h2
  have b := deliverAll_flatten segs' r h1 h2
  rw [hs] at a
  have he : (deliverAll r segs).hasError = (deliver r segs'.flatten).hasError := by
    unfold RespParser.hasError; rw [a.parser]
  refine ⟨a.hooks.symm.trans b.hooks, ?_, fun h => ?_⟩
  · rw [he]; unfold RespParser.hasError; rw [b.parser]
  · have hw : (deliver r segs'.flatten).hasError = false := he ▸ h
    exact (a.same hw).symm.trans (b.same hw)

/-- **C35.** In particular all the bytes at once and the bytes one at a time. -/
theorem C35_bytewise {r : RespParser} (h : Used r) (data : Bytes) :
    (deliver r data).d.hooks = (deliverAll r (data.map fun b => [b])).d.hooks ∧
    (deliver r data).hasError = (deliverAll r (data.map fun b => [b])).hasError ∧
    ((deliver r data).hasError = false → deliver r data = deliverAll r (data.map fun b => [b])) := by
  have hf : ∀ l : Bytes, (l.map fun b => [b]).flatten = l := by
    intro l; induction l with
    | nil => rfl
    | cons a t ih => simp [ih]
  exact C35_segmentation h (segs := [data]) (by rw [hf]; simp)

/-- **C35.** Injecting data consumes some of it, or there is an error: nothing is held back. -/
theorem C35_progress {r : RespParser} (h : Used r) (he : r.hasError = false) {data : Bytes} (hd : data ≠ []) :
    (0 < (r.inject data).2 ∧ (r.inject data).2 ≤ data.length) ∨ (r.inject data).1.hasError = true := by
  obtain ⟨h1, h2⟩ := used_safe h
  have hok : r.p.errno = .ok := (hasError_iff.1 he).resolve_right h2
  obtain ⟨m1, m2, m3⟩ := execute_moves hok (h1.2 (Or.inl hok)) r.d hd
  cases hx : (r.inject data).1.hasError with
  | true => exact Or.inr rfl
  | false =>
    left
    refine ⟨?_, m1⟩
    have hx := hasError_iff.1 hx
    change 0 < (execute respCb r.p r.d data).2.2
    by_cases hp : (execute respCb r.p r.d data).1.errno = .paused
    · exact m3 hp
    · have hk : (execute respCb r.p r.d data).1.errno = .ok := by
        change (if (execute respCb r.p r.d data).1.errno = .paused then { (execute respCb r.p r.d data).1 with errno := Errno.ok } else (execute respCb r.p r.d data).1).errno = .ok ∨ (if (execute respCb r.p r.d data).1.errno = .paused then { (execute respCb r.p r.d data).1 with errno := Errno.ok } else (execute respCb r.p r.d data).1).errno = .paused at hx
        rw [if_neg hp] at hx
        exact hx.resolve_right hp
      rw [m2 hk]
      exact List.length_pos_iff.2 hd

example : (deliverAll {} [demoReply.take 20, [], demoReply.drop 20]).d.hooks.length = 3 ∧
    (deliverAll {} (demoReply.map fun b => [b])).d.content = b!"abc" := by decide +kernel

/-- The limits of C35: an empty `inject` is taken for the end of the input, so it breaks a response that is not complete; and what
`content()` shows after an error depends on the division of the bytes. -/
theorem C35_limits : (({} : RespParser).inject b!"HTTP/1.1 200 OK\r\n").1.hasError = false ∧
    ((({} : RespParser).inject b!"HTTP/1.1 200 OK\r\n").1.inject []).1.hasError = true ∧
    (∃ a b : Bytes, (deliver {} (a ++ b)).content ≠ (deliverAll {} [a, b]).content) := by
  refine ⟨by decide +kernel, by decide +kernel, b!"HTTP/1.1 200 OK\r\nTransfer-Encoding: chunked\r\n\r\n3\r\nabc", b!"x", by decide +kernel⟩

end Pillow.Props
