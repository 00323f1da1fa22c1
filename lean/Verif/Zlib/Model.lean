import Verif.Basic

/-!
# The zlib drivers (src/tool1cd/UZLib.cpp)

zlib itself is a parameter: one call of `deflate` / `inflate` maps the state, the
available input and the room in the output buffer to a new state, the input left
over and the output. A stream is the list of bytes still to be read (source) or
written so far (destination); the destination accepts every write.
-/

namespace Verif.Zlib
open Verif

/-- `CHUNKSIZE` (UZLib.cpp:32). -/
def CHUNK : Nat := 16384

/-- A streaming compressor, as `deflate(strm, flush)` presents it: state, available
input, `flush == Z_FINISH`, `avail_out` ↦ state, input left over, output. Serves the model of UZLib.cpp:73-88. -/
structure Deflater (σ : Type) where
  init : σ
  call : σ → Bytes → Bool → Nat → σ × Bytes × Bytes

/-- Return codes of `inflate` the driver distinguishes (UZLib.cpp:127-140). -/
inductive Ret where
  | ok          -- Z_OK, Z_BUF_ERROR
  | streamEnd   -- Z_STREAM_END
  | error       -- Z_STREAM_ERROR, Z_NEED_DICT, Z_DATA_ERROR, Z_MEM_ERROR
  deriving DecidableEq, Repr

/-- A streaming decompressor: state, available input, `avail_out` ↦ return code,
state, input left over, output. Serves the model of UZLib.cpp:122-146. -/
structure Inflater (τ : Type) where
  init : τ
  call : τ → Bytes → Nat → Ret × τ × Bytes × Bytes

variable {σ τ : Type}

/-- Inner loop of `ZDeflateStream` (UZLib.cpp:73-88): call `deflate` until the output
buffer is not filled. `none`: still running when the fuel is used up. -/
def defInner (z : Deflater σ) : Nat → σ → Bytes → Bool → Bytes → Option (σ × Bytes)
  | 0, _, _, _, _ => none
  | fuel + 1, s, inp, fin, dst =>
    let r := z.call s inp fin CHUNK
    if r.2.2.length = CHUNK then defInner z fuel r.1 r.2.1 fin (dst ++ r.2.2)
    else some (r.1, dst ++ r.2.2)

/-- Outer loop of `ZDeflateStream` (UZLib.cpp:60-92): result flag and destination. -/
def defOuter (z : Deflater σ) (inner : Nat) : Nat → σ → Bytes → Bytes → Option (Bool × Bytes)
  | 0, _, _, _ => none
  | fuel + 1, s, src, dst =>
    let chunk := src.take CHUNK
    if chunk.length = 0 then some (false, dst)
    else
      let fin := decide (chunk.length < CHUNK)
      match defInner z inner s chunk fin dst with
      | none => none
      | some (s', dst') =>
        if fin then some (true, dst') else defOuter z inner fuel s' (src.drop CHUNK) dst'

/-- `ZDeflateStream` (UZLib.cpp:43-98). -/
def deflateStream (z : Deflater σ) (fuel : Nat) (src : Bytes) : Option (Bool × Bytes) :=
  defOuter z fuel fuel z.init src []

/-- Inner loop of `ZInflateStream` (UZLib.cpp:122-146). -/
def infInner (z : Inflater τ) : Nat → τ → Bytes → Bytes → Option (Outcome (Ret × τ × Bytes))
  | 0, _, _, _ => none
  | fuel + 1, t, inp, dst =>
    let r := z.call t inp CHUNK
    if r.1 = .error then some .throw
    else if r.2.2.2.length = CHUNK then infInner z fuel r.2.1 r.2.2.1 (dst ++ r.2.2.2)
    else some (.ok (r.1, r.2.1, dst ++ r.2.2.2))

/-- Outer loop of `ZInflateStream` (UZLib.cpp:113-149): the destination. -/
def infOuter (z : Inflater τ) (inner : Nat) : Nat → τ → Bytes → Bytes → Option (Outcome Bytes)
  | 0, _, _, _ => none
  | fuel + 1, t, src, dst =>
    let chunk := src.take CHUNK
    if chunk.length = 0 then some (.ok dst)
    else
      match infInner z inner t chunk dst with
      | none => none
      | some .throw => some .throw
      | some .ub => some .ub
      | some (.ok (ret, t', dst')) =>
        if ret = .streamEnd then some (.ok dst')
        else infOuter z inner fuel t' (src.drop CHUNK) dst'

/-- `ZInflateStream` (UZLib.cpp:101-153). -/
def inflateStream (z : Inflater τ) (fuel : Nat) (src : Bytes) : Option (Outcome Bytes) :=
  infOuter z fuel fuel z.init src []

end Verif.Zlib
