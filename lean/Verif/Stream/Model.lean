import Verif.Basic

/-!
# Streams (src/tool1cd/SystemClasses/TStream.cpp, TMemoryStream.cpp, TFileStream.cpp)

`int64_t` offsets and positions are `Int` (no stream comes near 2^63 bytes);
counts are `Nat` (a negative count is out of contract and not modelled). Read
returns the bytes stored into the caller's buffer.
-/

namespace Verif.Stream
open Verif

/-- `TMemoryStream` (TMemoryStream.hpp): the vector `_data` and `m_position`.
`GetSize` is `_data.size()` (TMemoryStream.cpp:34-37), so `m_size` is not kept. -/
structure Mem where
  data : Bytes
  pos : Int
  deriving DecidableEq, Repr

/-- A new stream is empty with position 0 (TStream.cpp:33-36). -/
def Mem.empty : Mem := ⟨[], 0⟩

/-- `std::vector<uint8_t>::resize(n)`: cut or zero-fill. Serves the model of TMemoryStream.cpp:39-46. -/
def resizeB (l : Bytes) (n : Nat) : Bytes := l.take n ++ List.replicate (n - l.length) 0

/-- `TMemoryStream::SetSize` (TMemoryStream.cpp:39-46). A negative size is a huge
unsigned one: `resize` throws. -/
def Mem.setSize (s : Mem) (n : Int) : Outcome Mem :=
  if n < 0 then .throw
  else .ok ⟨resizeB s.data n.toNat, if s.pos > n then n else s.pos⟩

/-- `TStream::SetPosition` (TStream.cpp:55-58). -/
def Mem.setPosition (s : Mem) (p : Int) : Mem := { s with pos := p }

/-- `TStream::Seek` (TStream.cpp:60-85): the flag tells whether it returned
normally; the state is the one left behind, also when it throws. -/
inductive Origin where
  | begin
  | current
  | fromEnd
  deriving DecidableEq, Repr

/-- `TStream::Seek` (TStream.cpp:60-85), likewise. -/
def Mem.seek (s : Mem) (offset : Int) : Origin → Bool × Mem
  | .begin => if offset > s.data.length then (false, s) else (true, { s with pos := offset })
  | .fromEnd =>
    let s' := { s with pos := (s.data.length : Int) - offset }
    if (s.data.length : Int) < offset then (false, s') else (true, s')
  | .current =>
    if s.pos + offset < 0 ∨ s.pos + offset > s.data.length then (false, s)
    else (true, { s with pos := s.pos + offset })

/-- `TMemoryStream::Read(void*, int64_t)` (TMemoryStream.cpp:48-61). The comparison in
line 51 is unsigned, so a negative position makes `toRead` at least
`size - pos > 0` or leaves it at `Count`; either way `memcpy` starts before the
vector. -/
def Mem.read (s : Mem) (count : Nat) : Outcome (Bytes × Mem) :=
  if s.pos < 0 then .ub
  else
    let toRead : Int := if (s.data.length : Int) ≤ s.pos + count then s.data.length - s.pos else count
    if toRead > 0 then
      .ok ((s.data.drop s.pos.toNat).take toRead.toNat, { s with pos := s.pos + toRead })
    else .ok ([], s)

/-- `TMemoryStream::EnsureSize` (TMemoryStream.cpp:83-89). -/
def ensureSize (l : Bytes) (n : Nat) : Bytes := if l.length < n then resizeB l n else l

/-- The loop `for (i = Count; i; i--) _data[m_position++] = *buf++`
(TMemoryStream.cpp:67-69). -/
def putLoop : Bytes → Nat → Bytes → Bytes
  | d, _, [] => d
  | d, p, b :: bs => putLoop (d.set p b) (p + 1) bs

/-- `TMemoryStream::Write(const void*, int64_t)` (TMemoryStream.cpp:63-71). With a
negative position, `EnsureSize` is asked for a huge size when `pos + Count` is
negative (`resize` throws), otherwise the loop writes before the vector. -/
def Mem.write (s : Mem) (buf : Bytes) : Outcome (Nat × Mem) :=
  if s.pos < 0 then (if s.pos + buf.length < 0 then .throw else if buf.isEmpty then .ok (0, s) else .ub)
  else
    let d := ensureSize s.data (s.pos.toNat + buf.length)
    .ok (buf.length, ⟨putLoop d s.pos.toNat buf, s.pos + buf.length⟩)

/-- `TStream::Read(std::vector<uint8_t>&, int64_t)` (TStream.cpp:93-100), with the
vector empty beforehand as in `CopyFrom`: the number of bytes read and the
vector afterwards, which has `CountToRead` bytes, zero after those read. -/
def Mem.readVec (s : Mem) (count : Nat) : Outcome (Nat × Bytes × Mem) := do
  let n := if count = 0 then s.data.length else count
  let (got, s') ← s.read n
  .ok (got.length, got ++ List.replicate (n - got.length) 0, s')

/-- `TStream::Write(const std::vector<uint8_t>&, int64_t)` (TStream.cpp:126-136):
a count of 0 means the whole vector. A count above the vector's size would read
past it. -/
def Mem.writeVec (s : Mem) (buf : Bytes) (count : Nat) : Outcome (Nat × Mem) :=
  if count = 0 then (if buf.length ≠ 0 then s.write buf else .ok (0, s))
  else if buf.length < count then .ub
  else s.write (buf.take count)

/-- `TStream::CopyFrom` for a positive count (TStream.cpp:111-113): number returned,
destination, source. Source and destination are different objects. -/
def copyCount (dst src : Mem) (count : Nat) : Outcome (Nat × Mem × Mem) := do
  let (n, v, src') ← src.readVec count
  let (r, dst') ← dst.writeVec v n
  .ok (r, dst', src')

/-- `TStream::CopyFrom` (TStream.cpp:102-114): a count of 0 rewinds the source and
copies all of it. -/
def copyFrom (dst src : Mem) (count : Nat) : Outcome (Nat × Mem × Mem) :=
  if count = 0 then
    let src := (src.seek 0 .begin).2
    if src.data.length ≠ 0 then copyCount dst src src.data.length else .ok (0, dst, src)
  else copyCount dst src count

/-! ## File streams -/

/-- `TFileStream` / `TWrapperStream`: the operating-system file, `m_position`,
`m_size`, and whether the underlying `std::iostream` is in the failed state
(`failbit`, set by a read that met the end of the file). Serves the model of TFileStream.cpp:31-42. -/
structure FileS where
  file : Bytes
  pos : Nat
  size : Nat
  failed : Bool
  deriving DecidableEq, Repr

/-- `TFileStream` constructor for an existing file (TFileStream.cpp:31-42), size by
`init_size` (TStream.cpp:183-191). -/
def FileS.open (file : Bytes) : FileS := ⟨file, 0, file.length, false⟩

/-- `TWrapperStream::Read` (TStream.cpp:194-207): `clear()`, seek, read, `gcount()`. A
short read sets `eofbit | failbit`. (Seeking past the end and reading yields 0
bytes.) -/
def FileS.read (s : FileS) (count : Nat) : Bytes × FileS :=
  let got := (s.file.drop s.pos).take count
  (got, { s with pos := s.pos + got.length, failed := decide (got.length < count) })

/-- Operating-system write at an offset, a gap filled with zeros. Serves the model of TStream.cpp:209-226. -/
def overlay (file : Bytes) (pos : Nat) (buf : Bytes) : Bytes :=
  if buf.isEmpty then file
  else (resizeB file (max pos file.length)).take pos ++ buf ++ file.drop (pos + buf.length)

/-- `TWrapperStream::Write` (TStream.cpp:209-226): there is no `clear()`, and `seekp`,
`write` and `flush` do nothing on a failed stream; `bad()` is about `badbit`
only, so the failure goes unnoticed and the position advances. -/
def FileS.write (s : FileS) (buf : Bytes) : Nat × FileS :=
  let pos' := s.pos + buf.length
  (buf.length,
    { s with file := if s.failed then s.file else overlay s.file s.pos buf
             pos := pos'
             size := if pos' > s.size then pos' else s.size })

/-- `TStream::SetSize` (TStream.cpp:44-48), not overridden by file streams. -/
def FileS.setSize (s : FileS) (n : Nat) : FileS := { s with size := n }

/-- `TStream::Seek` from the beginning (TStream.cpp:62-67). -/
def FileS.seek (s : FileS) (offset : Nat) : Outcome FileS :=
  if offset > s.size then .throw else .ok { s with pos := offset }

end Verif.Stream
