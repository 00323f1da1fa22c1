import Verif.FileStream.Model

/-!
# Storing in a file of a container what a stream holds (cfapi/V8File.cpp)

The stream is one in memory, a stream over another file of a container, or one over the very file it is stored in.
-/

namespace Verif.FileStream
open Verif Stream

/-- `V8File::write(TStream*, int, int)` (V8File.cpp:243-259) from a memory stream. -/
def writeFrom (f : File) (src : Mem) (start : Int) (n : Nat) : Outcome (Nat × File × Mem) := do
  let f ← goTo { f with modified := true } start
  let (k, m, src) ← Stream.copyFrom f.data src n
  .ok (k, { f with data := m }, src)

/-- `V8File::write(TStream*)` (V8File.cpp:263-280) from a memory stream: new contents. -/
def replaceFrom (f : File) (src : Mem) : Outcome (Nat × File × Mem) := do
  let m ← shorten f.data src.data.length
  let f ← goTo { f with data := m, modified := true } 0
  let (k, m, src) ← Stream.copyFrom f.data src 0
  .ok (k, { f with data := m }, src)

/-- The same (V8File.cpp:263-280) from stream `i` over another file (`TStream::GetSize` of it: TV8FileStream.cpp:112-115). -/
def replaceFromFile (f g : File) (i : Nat) : Outcome (Nat × File × File) := do
  let m ← shorten f.data (size g)
  let f ← goTo { f with data := m, modified := true } 0
  let (k, m, g) ← copyFrom f.data g i 0
  .ok (k, { f with data := m }, g)

/-- Copying (TStream.cpp:111-113) from stream `i` over the file into the file: reading moves the place the file is written at. -/
def copyOwn (f : File) (i n : Nat) : Outcome (Nat × File) := do
  let (b, f) ← read f i n
  let (k, m) ← f.data.writeVec (b ++ List.replicate (n - b.length) 0) b.length
  .ok (k, { f with data := m })

/-- `V8File::write(TStream*, int, int)` (V8File.cpp:243-259) for a count that is not 0, from stream `i` over the same file. -/
def writeOwn (f : File) (i : Nat) (start : Int) (n : Nat) : Outcome (Nat × File) := do
  let f ← goTo { f with modified := true } start
  copyOwn f i n

/-- `V8File::write(TStream*)` (V8File.cpp:263-280) from stream `i` over the same file: nothing is to be shortened. -/
def replaceOwn (f : File) (i : Nat) : Outcome (Nat × File) := do
  let f ← goTo { f with modified := true } 0
  let (_, f) ← seek f i 0 .begin
  if size f ≠ 0 then copyOwn f i (size f) else .ok (0, f)

end Verif.FileStream
