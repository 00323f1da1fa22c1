import Verif.Cache.Model

/-!
# A process that dies while changes are written (src/tool1cd/MemBlock.cpp:144-162)

The loop of `flush` deals with the pages in order, and each `Write` of a file stream ends with `flush()`
(TStream.cpp:209-226), so what was written before stays written. Simplification: the process dies, not the machine, and a
write that was under way has stored a prefix of its bytes.
-/

namespace Verif.Cache
open Verif Stream

/-- The write under way (MemBlock.cpp:154-162) when the process dies: `m` bytes of the page are stored. -/
def tornWrite (fs : FileS) (page n m : Nat) : Option (Option Blk) → Outcome FileS
  | some (some b) =>
    if !b.changed then .ok fs
    else do
      let fs ← fs.seek (n * page)
      .ok (fs.write (b.data.take m)).2
  | _ => .ok fs

/-- The file when the process dies in `MemBlockManager::flush` (MemBlock.cpp:144-151) after `k` pages are dealt with and
`m` bytes of the next one are stored. -/
def crashFlush (c : Cache) (k m : Nat) : Outcome Bytes := do
  let r ← flushLoop c.page c.fs 0 (c.blocks.take k)
  let fs ← tornWrite r.1 c.page k m c.blocks[k]?
  .ok fs.file

end Verif.Cache
