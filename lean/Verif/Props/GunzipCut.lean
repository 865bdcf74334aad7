import Verif.Props.Cut
import Verif.Props.Gunzip
/-!
# C77, C59: compressed content of responses that end with the connection or break off, and the read buffer
-/
namespace Pillow.Props
open Pillow Pillow.Spec

/-- **C77**: a response without a length: when the server closes the connection after a complete stream of compressed data, the application has all of the
decompressed data (with an error, as for any such response, see C62). -/
theorem C77_closed {F : Format} {Z : Zlib} {At : Bytes → Bytes → Z.State → Prop} (h : Decodes F Z At) (w rest : Bytes) (hw : F.Whole w) (zfuel : Nat) (hf : (F.plain w).length < zfuel)
    (env : ClientEnv) (he : env.inflate = some (gunzip Z zfuel)) (fuel : Nat) (c : Client) (hs : WellServed env fuel c) (ha : Expecting c)
    (head : RHead) (hz : Gzipped head.shown) (inputs : List CInput) (hl : Lasts c.request head (w ++ rest) inputs)
    (hrx : (c.run env fuel inputs).sock.rx = []) (remoteClosed : Bool) :
    ∃ l ct l', (c.run env fuel (inputs ++ [.error remoteClosed])).log =
        c.log ++ l ++ .close :: .finished (if remoteClosed then .remoteHostClosed else .network) (num head.status) head.shown ct :: l' ∧
      signals l = [.headersCompleted (num head.status) head.shown] ∧ taken l ++ ct = F.plain w ∧ Announced l (F.plain w) := by
  obtain ⟨l, ct, l', all, h1, h2, h3, h4, h5⟩ := (C62_closed env fuel c hs ha head _ inputs hl hrx remoteClosed).1
  obtain ⟨blocks, b1, b2, b3⟩ := h5.1 ⟨hz, id⟩ _ he
  have : all = F.plain w := by rw [b3]; exact C77_any_division h w rest hw zfuel hf blocks b1 b2
  exact ⟨l, ct, l', h1, h2, this ▸ h3, this ▸ h4⟩

/-- **C77**: a response that breaks off: the application has seen a beginning of the decompressed data, nothing else, and the request is finished with an error. -/
theorem C77_broken {F : Format} {Z : Zlib} {At : Bytes → Bytes → Z.State → Prop} (h : Decodes F Z At) (w rest : Bytes) (hw : F.Whole w) (zfuel : Nat) (hf : (F.plain w).length < zfuel)
    (env : ClientEnv) (he : env.inflate = some (gunzip Z zfuel)) (fuel : Nat) (c : Client) (hs : WellServed env fuel c) (ha : Expecting c) (hh : ¬ IsHead c.request)
    (interims : List Response) (m : Response) (inputs : List CInput) (more : Bytes) (hb : BreaksOff c.request interims m inputs more)
    (hz : Gzipped m.head.shown) (hm : m.content = w ++ rest) (remoteClosed : Bool) :
    ∃ l st hds ct l', (c.run env fuel (inputs ++ [.error remoteClosed])).log = c.log ++ l ++ .close :: .finished (if remoteClosed then .remoteHostClosed else .network) st hds ct :: l' ∧
      SeenSome m l ct (F.plain w) ∧ ((∃ x y, .headersCompleted x y ∈ l) → st = num m.head.status ∧ hds = m.head.shown) := by
  obtain ⟨l, st, hds, ct, l', all, h1, h2, h3⟩ := C63_error env fuel c hs ha interims m inputs more hb remoteClosed
  obtain ⟨blocks, b1, b2, b3⟩ := h2.1 ⟨hz, hh⟩ _ he
  have : all = F.plain w := by rw [b3]; exact C77_any_division h w rest hw zfuel hf blocks b1 (b2.trans hm)
  exact ⟨l, st, hds, ct, l', h1, this ▸ h3⟩

/-! ## Examples -/

theorem demoUnzipping_served : WellServed demoUnzip 2 demoUnzipping := wellServed_run demoUnzip 2 _ (.new ..) (by simp)

theorem demoUnzipping_expecting : Expecting demoUnzipping where
  pending := by decide +kernel
  connected := by decide +kernel
  onHeaders := by
    have : demoUnzipping.onHeaders = [] := by decide +kernel
    rw [this]; intro l hl; cases hl
  onContent := by
    have : demoUnzipping.onContent = List.replicate 9 [.consumeContent] := by decide +kernel
    rw [this]
    intro l hl hu
    rw [List.eq_of_mem_replicate hl] at hu
    simp at hu

/-- A compressed response without a length. -/
def demoGzipEof : RHead := { major := b!"1", minor := b!"0", status := b!"200", reason := b!" OK", headers := [⟨b!"Content-Encoding", b!" ", b!"gzip"⟩] }

def demoGzipLasts : List CInput := [.arrive (demoGzipEof.render ++ [31, 139]), .readyRead, .arrive [7, 0, 1], .readyRead]

theorem demoGzipLasts_lasts : Lasts demoUnzipping.request demoGzipEof ([31, 139, 7, 0] ++ [1]) demoGzipLasts where
  get := by unfold IsHead; decide +kernel
  wf := {
    major := ⟨1, by decide +kernel, by decide⟩
    minor := ⟨0, by decide +kernel, by decide⟩
    status := ⟨200, by decide +kernel, by decide⟩
    reason := Or.inr ⟨b!"OK", rfl, text_dec _ (by decide +kernel)⟩
    headers := by
      intro x hx
      simp only [demoGzipEof, List.mem_cons, List.not_mem_nil, or_false] at hx
      subst hx
      exact ⟨⟨by simp, by decide +kernel⟩, by decide, text_dec _ (by decide +kernel), by decide, by decide⟩
    lengths := by
      have : demoGzipEof.lengths = [] := by decide +kernel
      rw [this]
      intro v hv; simp at hv
    noUpgrade := by decide +kernel
    size := by decide +kernel }
  ends := ⟨by unfold RHead.IsChunked; decide +kernel, by decide +kernel, by unfold NoContent; decide +kernel⟩
  final := by decide +kernel
  steady := by simp [demoGzipLasts, Steady]
  whole := by decide +kernel

example : ∃ l ct l', (demoUnzipping.run demoUnzip 2 (demoGzipLasts ++ [.error true])).log =
      demoUnzipping.log ++ l ++ .close :: .finished .remoteHostClosed (num demoGzipEof.status) demoGzipEof.shown ct :: l' ∧
    signals l = [.headersCompleted (num demoGzipEof.status) demoGzipEof.shown] ∧ taken l ++ ct = demoFormat.plain [31, 139, 7, 0] ∧ Announced l (demoFormat.plain [31, 139, 7, 0]) :=
  C77_closed demoZlib_decodes [31, 139, 7, 0] [1] ⟨[7], by decide, rfl⟩ 1000 (by decide +kernel) demoUnzip rfl 2 demoUnzipping demoUnzipping_served demoUnzipping_expecting
    demoGzipEof ((gzipped_iff _).1 (by decide +kernel)) demoGzipLasts demoGzipLasts_lasts (by decide +kernel) true

/-- A compressed response of which the last byte is missing. -/
def demoGzipBreaks : List CInput := [.arrive (demoPacked.render.dropLast), .readyRead]

example : ∃ l st hds ct l', (demoUnzipping.run demoUnzip 2 (demoGzipBreaks ++ [.error false])).log = demoUnzipping.log ++ l ++ .close :: .finished .network st hds ct :: l' ∧
    SeenSome demoPacked l ct (demoFormat.plain [31, 139, 7, 0]) ∧
      ((∃ x y, CEv.headersCompleted x y ∈ l) → st = num demoPacked.head.status ∧ hds = demoPacked.head.shown) :=
  C77_broken demoZlib_decodes [31, 139, 7, 0] [] ⟨[7], by decide, rfl⟩ 1000 (by decide +kernel) demoUnzip rfl 2 demoUnzipping demoUnzipping_served demoUnzipping_expecting
    (by unfold IsHead; decide +kernel) [] demoPacked demoGzipBreaks [0]
    ⟨by simp, by simp, answers_get (by unfold IsHead; decide +kernel) demoPacked_wf, by decide +kernel, by simp [demoGzipBreaks, Steady], by decide +kernel, by simp⟩
    ((gzipped_iff _).1 (by decide +kernel)) rfl false

/-- **C59**, limits: a limited read buffer does not limit compressed content: with room for 4 bytes, the client keeps 258. -/
theorem C59_compressed_violation :
    let c := (Client.new [] [] [] []).run demoUnzip 2 ([.call (.setReadBufferSize 4), .call (.request (demoReq b!"GET")), .connected, .arrive demoPacked.render] ++ List.replicate 30 .readyRead)
    c.d.content = List.replicate 258 7 := by
  decide +kernel

end Pillow.Props
