import Verif.Cache.Crash

/-!
# The machine stops while changes are written (src/tool1cd/MemBlock.cpp:144-162)

Nothing in the program makes the system write its buffers to the disk: after `flush()` of a file stream (TStream.cpp:209-226) they are still in
memory. When the power fails, any of the bytes written since may have reached the disk, in any order. Simplification: what was written before
the last `flush` of the pages has reached the disk.
-/

namespace Verif.Cache
open Verif Stream

/-- The bytes of a buffer, each with its place in the file, the first at `pos`. Serves the model of MemBlock.cpp:154-162. -/
def place : Nat → Bytes → List (Nat × UInt8)
  | _, [] => []
  | pos, x :: l => (pos, x) :: place (pos + 1) l

/-- The bytes that the loop of `MemBlockManager::flush` (MemBlock.cpp:144-151) gives to the system, from page `n` on. -/
def givenBytes (page : Nat) : Nat → List (Option Blk) → List (Nat × UInt8)
  | _, [] => []
  | n, none :: bs => givenBytes page (n + 1) bs
  | n, some b :: bs => (if b.changed then place (n * page) b.data else []) ++ givenBytes page (n + 1) bs

/-- The file when these bytes have reached the disk, in this order. A byte behind the end makes the file longer, with zeros between. Serves
the model of MemBlock.cpp:144-162. -/
def reached (file : Bytes) (l : List (Nat × UInt8)) : Bytes := l.foldl (fun f p => overlay f p.1 [p.2]) file

end Verif.Cache
