import Verif.Stream.Model
import Verif.Container.Close
import Verif.Handle.Spec

/-!
# Streams over named files (src/tool1cd/SystemClasses/TFileStream.cpp, TStream.cpp:150-236)

The file system is one name: what is there, and whether this process may open it. The modes passed
by the callers other than `fmCreate` have no effect: the file is always opened for reading and writing
(TFileStream.cpp:34, 46, 71). A `std::fstream` that could not be opened has `failbit` set; seeking, reading
and writing then do nothing (ISO C++ [istream.unformatted], [ostream.unformatted]). Full disks and reading errors are not modelled.
-/

namespace Verif.Handle
open Verif Verif.Stream

/-- What is at the path: the bytes of a file, if there is one, and whether a file there can be opened for reading and
writing, or created. Serves the model of TFileStream.cpp:71. -/
structure Disk where
  bytes : Option Bytes
  rw : Bool
  deriving DecidableEq, Repr

/-- A `TFileStream`: `own`, whether the pointer `TFileStream::_stream` is set; `isOpen`, whether the `std::fstream` it shares with
`TWrapperStream::_stream` is open; `failbit`; `m_position` and `m_size`. Serves the model of TStream.cpp:177-181. -/
structure Handle where
  own : Bool
  isOpen : Bool
  failed : Bool
  pos : Nat
  size : Nat
  deriving DecidableEq, Repr

/-- `fstream(path, binary | in | out)` (TFileStream.cpp:71): opened only if the file is there and may be written. -/
def canOpen (d : Disk) : Bool := d.bytes.isSome && d.rw

/-- A new `std::fstream` is put in both places (`TWrapperStream::reopen`, TStream.cpp:177-181) and the size is asked for
(`init_size`, 183-191). -/
def attach (d : Disk) (ok : Bool) (pos : Nat) : Handle :=
  ⟨true, ok, !ok, pos, if ok then (d.bytes.getD []).length else 0⟩

/-- The constructor with `fmCreate` (TFileStream.cpp:31-51): the file is made, or emptied. -/
def create (d : Disk) : Handle × Disk :=
  if d.rw then (attach ⟨some [], true⟩ true 0, ⟨some [], true⟩) else (attach d false 0, d)

/-- The constructor with any other mode. Serves the model of V8Catalog.cpp:155-206. -/
def openH (d : Disk) : Handle := attach d (canOpen d) 0

/-- `Reopen` (TFileStream.cpp:63-73): the position is kept, the size is asked for again. -/
def reopen (d : Disk) (h : Handle) : Handle :=
  if h.own && h.isOpen then h else attach d (canOpen d) h.pos

/-- `TFileStream::Read` (TFileStream.cpp:82-86) with `TWrapperStream::Read` (TStream.cpp:194-207): the failure is cleared first;
a short read sets it, and so does one of a file that is not open. -/
def read (d : Disk) (h : Handle) (n : Nat) : Bytes × Handle :=
  let h := reopen d h
  let got := if h.isOpen then ((d.bytes.getD []).drop h.pos).take n else []
  (got, { h with pos := h.pos + got.length, failed := !h.isOpen || decide (got.length < n) })

/-- `TFileStream::Write` (TFileStream.cpp:88-92) with `TWrapperStream::Write` (TStream.cpp:209-226): the failure is not cleared,
nothing is written then, and success is reported. -/
def write (d : Disk) (h : Handle) (buf : Bytes) : Nat × Handle × Disk :=
  let h := reopen d h
  let d' : Disk := if h.failed then d else { d with bytes := some (overlay (d.bytes.getD []) h.pos buf) }
  (buf.length, { h with pos := h.pos + buf.length, size := max h.size (h.pos + buf.length) }, d')

/-- `TStream::Seek` from the beginning (TStream.cpp:58-67), the offset not negative. -/
def seek (h : Handle) (off : Nat) : Outcome Handle :=
  if off > h.size then .throw else .ok { h with pos := off }

/-- `TFileStream::Close` (TFileStream.cpp:76-80): `close` through the pointer, which is undefined if it is not set; then it is reset. -/
def close (h : Handle) : Outcome Handle :=
  if h.own then .ok { h with own := false, isOpen := false } else .ub

/-- `TFileStream::~TFileStream` (TFileStream.cpp:53-56). -/
def destroy (h : Handle) : Outcome Unit := do
  let _ ← close h
  .ok ()

/-- `CopyFrom(source, 0)` (TStream.cpp:102-114) of a source with these bytes: nothing is written if there are none. -/
def copyAll (d : Disk) (h : Handle) (src : Bytes) : Handle × Disk :=
  if src.isEmpty then (h, d) else (write d h src).2

/-- What `CopyFrom(source, count)` (TStream.cpp:102-114) does to a source of `size` bytes. -/
def copyOps (size count : Nat) : List Spec.Op :=
  if count = 0 then .seek 0 :: (if size = 0 then [] else [.read size]) else [.read count]

/-- What `write_block` (V8Catalog.cpp:575-668, called by `write_and_close`, V8File.cpp:533-575) does to the stream it writes; `pages` are
the numbers of bytes that go to each page, one page at least. -/
def storeOps (size : Nat) (pages : List Nat) : List Spec.Op := .seek 0 :: pages.flatMap (copyOps size)

/-! ## Saving the entries of a container -/

/-- `V8File::save_to_file` (V8File.cpp:94-120) of an opened entry: what is on the disk, and how leaving the function ends: the
stream is closed, and then destroyed. The file's times are not modelled. -/
def saveToFile (d : Disk) (content : Bytes) : Disk × Outcome Unit :=
  let (h, d) := create d
  let (h, d) := copyAll d h content
  (d, do
    let h ← close h
    destroy h)

mutual

/-- The loop of `V8Catalog::SaveToDir` (V8Catalog.cpp:794-813). Directories and names are not modelled (the path of every file is
taken to be fresh and writable). `depth` bounds the nesting. The entry is closed after it is saved (`close`, V8File.cpp:491-529); a
container in an entry is opened with `V8Catalog(V8File*)` (V8Catalog.cpp:275-301). -/
def saveEntries (cd : Container.Codec) (fuel : Nat) : Nat → Container.Cat → List Container.File → Outcome (Option Container.Cat)
  | 0, _, _ => .ok none
  | _ + 1, c, [] => .ok (some c)
  | depth + 1, c, e :: rest => do
    match ← Container.openFile cd fuel c e with
    | none => .ok none
    | some e => do
      match ← saveEntry fuel depth (e.content.getD []) with
      | none => .ok none
      | some () => do
        match ← Container.closeFile cd fuel c e with
        | none => .ok none
        | some (c, _) => saveEntries cd fuel depth c rest

/-- One turn: an entry that is a container is saved as a directory. Serves the model of V8Catalog.cpp:794-813. -/
def saveEntry (fuel : Nat) : Nat → Bytes → Outcome (Option Unit)
  | 0, _ => .ok none
  | depth + 1, b => do
    if ← Container.isCatalog b then
      match ← Container.initCatalog fuel b with
      | some (.container k) => do
        match ← saveEntries Container.plainCodec fuel depth k.cat k.ents with
        | none => .ok none
        | some _ => .ok (some ())
      | some _ => .ok (some ())
      | none => .ok none
    else do
      let _ ← (saveToFile ⟨none, true⟩ b).2
      .ok (some ())

end

end Verif.Handle
