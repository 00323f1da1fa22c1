import Verif.Stream.Model

/-!
# Streams over a file of a container (cfapi/TV8FileStream.cpp, cfapi/V8File.cpp)

A file that is open holds its contents in a memory stream (`V8Catalog::read_datablock`
returns a `TMemoryStream`, V8Catalog.cpp:454-473). The locks do nothing
(`TCriticalSection`, System.Classes.cpp:31-37) and are left out, and so are the times. Counts are below
2^31. The overloads that take a `std::vector` by value
(TV8FileStream.cpp:49-54, 67-72, V8File.cpp:159-171, 202-218) work on a copy and are left out.
-/

namespace Verif.FileStream
open Verif Stream

/-- An open file: its contents, whether they differ from those in the container
(`_datamodified`), and the streams open on it (`_streams`), a stream being given by its
position (`TV8FileStream::pos`). Serves the model of V8File.cpp:131-141. -/
structure File where
  data : Mem
  modified : Bool
  streams : List Int
  deriving DecidableEq, Repr

/-- Conversion of `int64_t` to `int`, as at the calls in TV8FileStream.cpp:43, 61. -/
def toInt (x : Int) : Int := (x + 2 ^ 31) % 2 ^ 32 - 2 ^ 31

/-- `get_file_length` (V8File.cpp:131-141). -/
def size (f : File) : Nat := f.data.data.length

/-- `data->Seek(Start, soFromBeginning)` (V8File.cpp:150, 193). -/
def goTo (f : File) (start : Int) : Outcome File :=
  if (f.data.seek start .begin).1 then .ok { f with data := (f.data.seek start .begin).2 } else .throw

/-- `V8File::read(void*, int, int)` (V8File.cpp:145-156). -/
def readAt (f : File) (start : Int) (n : Nat) : Outcome (Bytes × File) := do
  let f ← goTo f start
  let (b, m) ← f.data.read n
  .ok (b, { f with data := m })

/-- `V8File::write(const void*, int, int)` (V8File.cpp:182-198). -/
def writeAt (f : File) (start : Int) (buf : Bytes) : Outcome (Nat × File) := do
  let f ← goTo { f with modified := true } start
  let (n, m) ← f.data.write buf
  .ok (n, { f with data := m })

/-- `if (data->GetSize() > Length) data->SetSize(Length)` (V8File.cpp:233). -/
def shorten (m : Mem) (n : Nat) : Outcome Mem := if m.data.length > n then m.setSize n else .ok m

/-- `V8File::write(const void*, int)` (V8File.cpp:222-239): new contents. -/
def replace (f : File) (buf : Bytes) : Outcome (Nat × File) := do
  let m ← shorten f.data buf.length
  let f ← goTo { f with data := m, modified := true } 0
  let (n, m) ← f.data.write buf
  .ok (n, { f with data := m })

/-- `get_stream` and the constructor (V8File.cpp:175-178, TV8FileStream.cpp:25-29): the number of
the new stream. -/
def openStream (f : File) : Nat × File := (f.streams.length, { f with streams := f.streams ++ [0] })

/-- `TV8FileStream::Read` (TV8FileStream.cpp:41-46). -/
def read (f : File) (i n : Nat) : Outcome (Bytes × File) :=
  match f.streams[i]? with
  | none => .ub
  | some p => do
    let (b, f) ← readAt f (toInt p) n
    .ok (b, { f with streams := f.streams.set i (p + b.length) })

/-- `TV8FileStream::Write` (TV8FileStream.cpp:59-64). -/
def write (f : File) (i : Nat) (buf : Bytes) : Outcome (Nat × File) :=
  match f.streams[i]? with
  | none => .ub
  | some p => do
    let (n, f) ← writeAt f (toInt p) buf
    .ok (n, { f with streams := f.streams.set i (p + n) })

/-- The new position (TV8FileStream.cpp:79-109). -/
def seekPos (len pos offset : Int) : Origin → Int
  | .begin => if offset ≥ 0 then (if offset ≤ len then offset else len) else pos
  | .current => if pos + offset < len then pos + offset else len
  | .fromEnd => if offset ≤ 0 then (if offset ≤ len then len - offset else 0) else pos

/-- `TV8FileStream::Seek` (TV8FileStream.cpp:76-111). -/
def seek (f : File) (i : Nat) (offset : Int) (o : Origin) : Outcome (Int × File) :=
  match f.streams[i]? with
  | none => .ub
  | some p =>
    let q := seekPos (size f) p offset o
    .ok (q, { f with streams := f.streams.set i q })

/-- `GetPosition` (TStream.cpp:50-53) is not overridden: it returns `m_position`, which no function of
`TV8FileStream` changes; it begins at 0, and `SetPosition` (TStream.cpp:55-58) changes nothing else. -/
def getPosition (f : File) (i : Nat) : Outcome Int :=
  match f.streams[i]? with
  | none => .ub
  | some _ => .ok 0

/-- `dst->CopyFrom(stream, count)` (TStream.cpp:102-114) into a memory stream. -/
def copyCount (dst : Mem) (f : File) (i count : Nat) : Outcome (Nat × Mem × File) := do
  let (b, f) ← read f i count
  let (n, dst) ← dst.writeVec (b ++ List.replicate (count - b.length) 0) b.length
  .ok (n, dst, f)

/-- Built on TStream.cpp:102-114. -/
def copyFrom (dst : Mem) (f : File) (i count : Nat) : Outcome (Nat × Mem × File) :=
  if count = 0 then do
    let (_, f) ← seek f i 0 .begin
    if size f ≠ 0 then copyCount dst f i (size f) else .ok (0, dst, f)
  else copyCount dst f i count

/-- The destructor of the file (V8File.cpp:584-594). The loop deletes the stream under the iterator, whose
destructor (TV8FileStream.cpp:33-37) erases it from the set the loop goes through; advancing the
iterator is then undefined. -/
def destroy (f : File) : Outcome Unit := if f.streams.isEmpty then .ok () else .ub

end Verif.FileStream
