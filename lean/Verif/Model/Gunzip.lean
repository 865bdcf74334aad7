import Verif.Model.HttpClient
/-!
# `GunzipContentTransformer` (HttpClient.cpp:38-95)

zlib itself is not in the repository: `inflate` is a parameter (`Zlib`), and what is assumed of it is in `Spec/Gunzip.lean`. The loop around it is modelled here.
-/
namespace Pillow

/-- The result of one call of `inflate(&stream, Z_NO_FLUSH)`: the stream, the number of bytes taken from `next_in`, the bytes written to `next_out`, and
whether the result is negative. zlib, not in this repository; used at HttpClient.cpp:68. -/
structure Inflated (σ : Type) where
  state : σ
  taken : Nat
  out : Bytes
  bad : Bool
deriving DecidableEq

/-- zlib: the stream after `inflateInit2(&stream, 31)` (HttpClient.cpp:45-49), and `inflate` for a stream, the `avail_in` bytes at `next_in` and `avail_out`. -/
structure Zlib where
  State : Type
  init : State
  inflate : State → Bytes → Nat → Inflated State

/-- The transformer: `_inflateStream` and `_streamBad` (HttpClient.cpp:90-92). `_inflatedBuffer` is only a buffer that is reused: it is emptied at the beginning of
each call (HttpClient.cpp:59-62; the size is reset in place only if the buffer is not shared, and then nobody else sees it). -/
structure Gunzip (Z : Zlib) where
  stream : Z.State
  bad : Bool

/-- The constructor (HttpClient.cpp:45-49). -/
def Gunzip.new (Z : Zlib) : Gunzip Z := ⟨Z.init, false⟩

/-- `sizeof(buffer)` (HttpClient.cpp:58). -/
def inflateBuffer : Nat := 32 * 1024

/-- The `do … while` loop (HttpClient.cpp:67-81): `input` is what is left at `next_in`, `acc` is `_inflatedBuffer`. Fuel stands for termination. -/
def Gunzip.loop (Z : Zlib) : Nat → Z.State → Bool → Bytes → Bytes → Z.State × Bool × Bytes
  | 0, s, bad, _, acc => (s, bad, acc)
  | n + 1, s, bad, input, acc =>
    if bad then (s, true, acc)
    else
      let r := Z.inflate s input inflateBuffer
      if r.bad then (r.state, true, acc)
      else
        let acc := acc ++ r.out
        let input := input.drop r.taken
        if input ≠ [] ∧ r.out.length = inflateBuffer then Gunzip.loop Z n r.state false input acc else (r.state, false, acc)

/-- `transform` (HttpClient.cpp:56-92). -/
def Gunzip.transform (Z : Zlib) (fuel : Nat) (g : Gunzip Z) (data : Bytes) : Gunzip Z × Bytes :=
  let r := Gunzip.loop Z fuel g.stream g.bad data []
  (⟨r.1, r.2.1⟩, if r.2.1 then data else r.2.2)

/-- The transformer after some blocks. (Calls of `transform`, HttpClient.cpp:52-89, from 703-715.) -/
def Gunzip.run (Z : Zlib) (fuel : Nat) (blocks : List Bytes) : Gunzip Z := blocks.foldl (fun g b => (g.transform Z fuel b).1) (Gunzip.new Z)

/-- What `transform` returns for the last of some blocks: the form in which the model of the client (`ClientEnv.inflate`, used by `messageContent`,
HttpClient.cpp:706-707) calls the transformer. -/
def gunzip (Z : Zlib) (fuel : Nat) (blocks : List Bytes) : Bytes :=
  match blocks.getLast? with
  | none => []
  | some b => ((Gunzip.run Z fuel blocks.dropLast).transform Z fuel b).2

end Pillow
