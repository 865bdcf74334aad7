import Verif.Lemmas.GunzipDemo
import Verif.Props.Pace
/-!
# C77: compressed content is shown decompressed
-/
namespace Pillow.Props
open Pillow Pillow.Spec

/-- **C77**: a complete stream of compressed data, divided into blocks in any way: what the application gets is the decompressed data, and anything after the end
of the stream is ignored. (There is no bound on the sizes; `fuel` only has to be large enough for the loop to end.) -/
theorem C77_any_division {F : Format} {Z : Zlib} {At : Bytes → Bytes → Z.State → Prop} (h : Decodes F Z At) (w rest : Bytes) (hw : F.Whole w) (fuel : Nat) (hf : (F.plain w).length < fuel)
    (blocks : List Bytes) (hn : [] ∉ blocks) (hb : blocks.flatten = w ++ rest) : unzipped (gunzip Z fuel) blocks = F.plain w := by
  obtain ⟨i, s, -, h2, -, -, h5, -⟩ := run_mid h hw fuel hf blocks hn (Or.inr ⟨rest, hb.symm⟩)
  rw [h5 ⟨rest, hb.symm⟩] at h2
  exact h.last h2 hw

/-- **C77**: before the end of the stream, the application has a beginning of the decompressed data, and nothing that is not in what has arrived. -/
theorem C77_beginning {F : Format} {Z : Zlib} {At : Bytes → Bytes → Z.State → Prop} (h : Decodes F Z At) (w : Bytes) (hw : F.Whole w) (fuel : Nat) (hf : (F.plain w).length < fuel)
    (blocks : List Bytes) (hn : [] ∉ blocks) (hb : blocks.flatten <+: w) : unzipped (gunzip Z fuel) blocks <+: F.plain blocks.flatten ∧ unzipped (gunzip Z fuel) blocks <+: F.plain w := by
  obtain ⟨i, s, -, h2, -, h4, -⟩ := run_mid h hw fuel hf blocks hn (Or.inl hb)
  rw [h4 hb] at h2
  have := h.within h2 hw hb
  exact ⟨this, this.trans (h.mono hw hb (List.prefix_refl _))⟩

/-- **C77** (partial: no block adds 32 KiB or more; the other case is `C77_late`): the application has all that can be decompressed of what has arrived. -/
theorem C77_at_once_partial {F : Format} {Z : Zlib} {At : Bytes → Bytes → Z.State → Prop} (h : Decodes F Z At) (w : Bytes) (hw : F.Whole w) (fuel : Nat) (hf : (F.plain w).length < fuel)
    (blocks : List Bytes) (hn : [] ∉ blocks) (hb : blocks.flatten <+: w)
    (hs : ∀ a b c, blocks = a ++ b :: c → (F.plain (a ++ [b]).flatten).length < (F.plain a.flatten).length + 32 * 1024) : unzipped (gunzip Z fuel) blocks = F.plain blocks.flatten := by
  obtain ⟨i, s, -, -, -, -, -, h6⟩ := run_mid h hw fuel hf blocks hn (Or.inl hb)
  exact h6 (fun a b c e _ => hs a b c e) hb

/-- What a report of a response with compressed content shows. -/
def ShownAs (before log : List CEv) (m : Response) (all : Bytes) : Prop :=
  ∃ l₁ ct l₂, log = before ++ l₁ ++ .finished .noError (num m.head.status) m.head.shown ct :: l₂ ∧
    signals l₁ = [.headersCompleted (num m.head.status) m.head.shown] ∧ taken l₁ ++ ct = all ∧ Announced l₁ all

/-- **C77**: … a response with `Content-Encoding: gzip` whose content is a complete stream is reported with the decompressed content. -/
theorem C77_reported {F : Format} {Z : Zlib} {At : Bytes → Bytes → Z.State → Prop} (h : Decodes F Z At) (w rest : Bytes) (hw : F.Whole w) (zfuel : Nat) (hf : (F.plain w).length < zfuel)
    (env : ClientEnv) (he : env.inflate = some (gunzip Z zfuel)) (hd : Prop) (hh : ¬ hd) (before log : List CEv) (m : Response) (hr : Reports env hd before log m)
    (hz : Gzipped m.head.shown) (hm : m.content = w ++ rest) : ShownAs before log m (F.plain w) := by
  obtain ⟨l₁, ct, l₂, all, h1, h2, h3, h4, h5⟩ := hr
  obtain ⟨blocks, b1, b2, b3⟩ := h5.1 ⟨hz, hh⟩ _ he
  have : all = F.plain w := by rw [b3]; exact C77_any_division h w rest hw zfuel hf blocks b1 (b2.trans hm)
  exact ⟨l₁, ct, l₂, h1, h2, this ▸ h3, this ▸ h4⟩

/-- **C77**: from the arrival of the response, in any pieces, to the report. -/
theorem C77_decompressed {F : Format} {Z : Zlib} {At : Bytes → Bytes → Z.State → Prop} (h : Decodes F Z At) (w rest : Bytes) (hw : F.Whole w) (zfuel : Nat) (hf : (F.plain w).length < zfuel)
    (env : ClientEnv) (he : env.inflate = some (gunzip Z zfuel)) (fuel : Nat) (c : Client) (hs : WellServed env fuel c) (ha : Awaiting c) (hh : ¬ IsHead c.request)
    (m : Response) (hm : m.Wf) (h100 : num m.head.status ≠ 100) (hz : Gzipped m.head.shown) (hc : m.content = w ++ rest)
    (segs : List Bytes) (inputs : List CInput) (hi : Arrive segs inputs) (hw' : segs.flatten = m.render) :
    ShownAs c.log (c.run env fuel inputs).log m (F.plain w) :=
  C77_reported h w rest hw zfuel hf env he _ hh _ _ m
    (C56_reports_the_response env fuel c hs ha m (answers_get hh hm) h100 segs inputs hi hw') hz hc

/-- **C77**: … also with a limited read buffer, whatever else happens, once the client has read all of it. -/
theorem C77_decompressed_paced {F : Format} {Z : Zlib} {At : Bytes → Bytes → Z.State → Prop} (h : Decodes F Z At) (w rest : Bytes) (hw : F.Whole w) (zfuel : Nat) (hf : (F.plain w).length < zfuel)
    (env : ClientEnv) (he : env.inflate = some (gunzip Z zfuel)) (fuel : Nat) (c : Client) (hs : WellServed env fuel c) (ha : Expecting c) (hh : ¬ IsHead c.request)
    (interims : List Response) (m : Response) (inputs : List CInput) (hp : Paced c.request interims m inputs) (hz : Gzipped m.head.shown) (hc : m.content = w ++ rest) :
    let c' := c.run env fuel inputs
    ShownAs c.log c'.log m (F.plain w) ∨ (c'.responsePending = true ∧ c'.sock.rx ≠ []) := by
  intro c'
  exact (C59_reports env fuel c hs ha interims m inputs hp).imp (fun hr => C77_reported h w rest hw zfuel hf env he _ hh _ _ m hr hz hc) id

/-- **C77**: whatever zlib does: up to some block the application gets what zlib makes of the content; from the first block zlib finds an error in, it gets the
content unchanged. -/
theorem C77_errors (Z : Zlib) (fuel : Nat) (blocks : List Bytes) : ∃ a b, blocks = a ++ b ∧ unzipped (gunzip Z fuel) blocks = unzipped (gunzip Z fuel) a ++ b.flatten ∧
    (Gunzip.run Z fuel a).bad = false ∧ ∀ x y, b = x :: y → (Gunzip.run Z fuel (a ++ [x])).bad = true := by
  obtain ⟨a, b, h1, h2, h3, h4, -⟩ := run_raw Z fuel blocks
  exact ⟨a, b, h1, h2, h3, h4⟩

/-- **C77**: content that zlib rejects from the first block on is shown unchanged. -/
theorem C77_not_compressed (Z : Zlib) (fuel : Nat) (hf : 0 < fuel) (b : Bytes) (bs : List Bytes) (hb : (Z.inflate Z.init b (32 * 1024)).bad = true) :
    unzipped (gunzip Z fuel) (b :: bs) = (b :: bs).flatten := by
  obtain ⟨a, x, h1, h2, h3, h4, -⟩ := run_raw Z fuel (b :: bs)
  have hbad : (Gunzip.run Z fuel [b]).bad = true := by
    obtain ⟨n, rfl⟩ := Nat.exists_eq_succ_of_ne_zero (by omega : fuel ≠ 0)
    show (Gunzip.loop Z (n + 1) Z.init false b []).2.1 = true
    unfold Gunzip.loop
    rw [if_neg (by simp)]
    dsimp only [inflateBuffer]
    rw [if_pos hb]
  cases a with
  | nil =>
    rw [List.nil_append] at h1
    rw [h2, h1]
    rfl
  | cons y a =>
    rw [List.cons_append] at h1
    injection h1 with h1 h1'
    subst h1
    exfalso
    have key : ∀ (a : List Bytes) (g : Gunzip Z), g.bad = true → (a.foldl (fun g b => (g.transform Z fuel b).1) g).bad = true := by
      intro a
      induction a with
      | nil => exact fun g h => h
      | cons z a ih => exact fun g h => ih _ (transform_bad Z fuel g h z).1
    have : (Gunzip.run Z fuel (b :: a)).bad = true := key a _ hbad
    rw [h3] at this
    cases this

/-! ## Examples -/

/-- zlib is the decoder of `Lemmas/GunzipDemo.lean`. -/
def demoUnzip : ClientEnv := ⟨some (gunzip demoZlib 1000), fun _ => {}⟩

def demoPacked : Response := { demoGzip with wire := [31, 139, 7, 0], content := [31, 139, 7, 0] }

theorem demoPacked_wf : demoPacked.Wf := ⟨demoGzip_wf.head, .sized _ (by decide +kernel) (by decide +kernel)⟩

def demoUnzipping : Client := (Client.new [] (List.replicate 9 [.consumeContent]) [] []).run demoUnzip 2 [.call (.request (demoReq b!"GET")), .connected]

theorem demoUnzipping_awaiting : Awaiting demoUnzipping where
  pending := by decide +kernel
  connected := by decide +kernel
  unlimited := by decide +kernel
  onHeaders := by
    have : demoUnzipping.onHeaders = [] := by decide +kernel
    rw [this]; intro l hl; cases hl
  onContent := by
    have : demoUnzipping.onContent = List.replicate 9 [.consumeContent] := by decide +kernel
    rw [this]
    intro l hl u hu
    rw [List.eq_of_mem_replicate hl] at hu
    rw [List.mem_singleton.1 hu]
    trivial

/-- Content that arrives in two pieces, cut between the two bytes it begins with. -/
def demoUnzippingRun : List CInput := [.arrive (demoPacked.render.take 59), .readyRead, .arrive (demoPacked.render.drop 59), .readyRead]

example : demoFormat.plain [31, 139, 7, 0] = List.replicate 258 7 ∧ ShownAs demoUnzipping.log (demoUnzipping.run demoUnzip 2 demoUnzippingRun).log demoPacked (demoFormat.plain [31, 139, 7, 0]) ∧
    demoPacked.render.drop 59 = [139, 7, 0] :=
  ⟨by decide +kernel, C77_decompressed demoZlib_decodes [31, 139, 7, 0] [] ⟨[7], by decide, rfl⟩ 1000 (by decide +kernel) demoUnzip rfl 2 demoUnzipping (wellServed_run demoUnzip 2 _ (.new ..) (by simp))
    demoUnzipping_awaiting (by unfold IsHead; decide +kernel) demoPacked demoPacked_wf (by decide +kernel) ((gzipped_iff _).1 (by decide +kernel)) rfl
    [demoPacked.render.take 59, demoPacked.render.drop 59] _ (.segment _ (.segment _ .nil)) (by simp), by decide +kernel⟩

/-- **C77 is false of the code**: content that is not compressed although its header says so is shown unchanged if it arrives in one piece, but loses its first byte
if this arrives alone. -/
theorem C77_division_violation :
    let m : Response := { demoGzip with wire := b!"abcd", content := b!"abcd" }
    let whole := demoUnzipping.run demoUnzip 2 [.arrive m.render, .readyRead]
    let cut := demoUnzipping.run demoUnzip 2 [.arrive (m.render.take (m.render.length - 3)), .readyRead, .arrive b!"bcd", .readyRead]
    m.Wf ∧ taken whole.log = b!"abcd" ∧ taken cut.log = b!"bcd" := by
  refine ⟨demoGzip_wf, ?_⟩
  decide +kernel

/-- **C77 is false of the code**: a gzip file may have several parts (RFC 1952, 2.2); only the first is shown. -/
theorem C77_parts_violation {F : Format} {Z : Zlib} {At : Bytes → Bytes → Z.State → Prop} (h : Decodes F Z At) (w w' : Bytes) (hw : F.Whole w) (fuel : Nat) (hf : (F.plain w).length < fuel)
    (hn : F.plain w' ≠ []) (hne : w ++ w' ≠ []) : unzipped (gunzip Z fuel) [w ++ w'] ≠ F.plain w ++ F.plain w' := by
  rw [C77_any_division h w w' hw fuel hf [w ++ w'] (by simpa using hne.symm) (by simp)]
  intro e
  exact hn (List.append_cancel_left (by rw [← e, List.append_nil] : F.plain w ++ F.plain w' = F.plain w ++ []))

example : unzipped (gunzip demoZlib 1000) [[31, 139, 7, 0] ++ [31, 139, 7, 0]] ≠ demoFormat.plain [31, 139, 7, 0] ++ demoFormat.plain [31, 139, 7, 0] :=
  C77_parts_violation demoZlib_decodes [31, 139, 7, 0] [31, 139, 7, 0] ⟨[7], by decide, rfl⟩ 1000 (by decide +kernel) (by decide +kernel) (by simp)

/-- **C77**, limits: a block that fills the buffer of 32 KiB exactly when it has been taken: what does not fit is shown with the next block, and not at all if there
is none. -/
theorem C77_late : ∃ blocks : List Bytes, [] ∉ blocks ∧ (∃ w, demoFormat.Whole w ∧ blocks.flatten <+: w) ∧
    (demoFormat.plain blocks.flatten).length = 32 * 1024 + 256 ∧ (unzipped (gunzip demoZlib 100000) blocks).length = 32 * 1024 := by
  refine ⟨[31 :: 139 :: List.replicate 128 7], by decide, ⟨31 :: 139 :: (List.replicate 128 7 ++ [0]), ⟨List.replicate 128 7, by decide, rfl⟩, ⟨[0], by simp⟩⟩, ?_, ?_⟩
  · decide +kernel
  · decide +kernel

end Pillow.Props
