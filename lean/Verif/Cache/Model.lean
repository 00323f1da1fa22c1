import Verif.Stream.Model

/-!
# The page cache and page access (src/tool1cd/MemBlock.cpp, Class_1CD.cpp:58-111)

The file is the file stream of `Verif.Stream.Model`. The code hands out raw
pointers into cached pages; the model applies the caller's modification at the
moment the page is handed out, so a pointer kept across a later clean-up is not
modelled. `GetTickCount()` is an argument (`now`), a 32-bit number.
-/

namespace Verif.Cache
open Verif Stream

/-- `class MemBlock` (MemBlock.h:29-55): page bytes, `changed`, `last_data_get`. The
number of the block is its place in the vector. -/
structure Blk where
  data : Bytes
  changed : Bool
  last : Nat
  deriving DecidableEq, Repr

/-- `class MemBlockManager` (MemBlock.h:60-99): page size, file, `memblocks`. -/
structure Cache where
  page : Nat
  fs : FileS
  blocks : List (Option Blk)
  deriving DecidableEq, Repr

/-- 32-bit little-endian bytes of a number. Serves the model of MemBlock.cpp:26-61. -/
def le32 (n : Nat) : Bytes :=
  [UInt8.ofNat n, UInt8.ofNat (n / 256), UInt8.ofNat (n / 65536), UInt8.ofNat (n / 16777216)]

/-- `fs->Seek(n * page_size); fs->ReadBuffer(buf, page_size)` (MemBlock.cpp:46-47,
54-55). `buf` comes from `new char[]`: after a short read part of the page is
uninitialised memory. -/
def readPage (fs : FileS) (page n : Nat) : Outcome (FileS × Bytes) := do
  let fs ← fs.seek (n * page)
  let (got, fs) := fs.read page
  if got.length < page then .ub else .ok (fs, got)

/-- `MemBlock::create` (MemBlock.cpp:26-61). -/
def create (fs : FileS) (page n : Nat) (forWrite read : Bool) : Outcome (FileS × Bytes) :=
  if forWrite then
    if fs.size / page ≤ n then do
      let zero := List.replicate page 0
      let fs ← fs.seek (n * page)
      let fs := (fs.write zero).2
      let fs ← fs.seek 12
      let fs := (fs.write (le32 n)).2
      .ok (fs, zero)
    else if read then readPage fs page n
    else .ok (fs, List.replicate page 0)
  else readPage fs page n

/-- `MemBlockManager::get_block` (MemBlock.cpp:91-98) with `MemBlock::get_block(false)`
(lines 189-196); `none` is the null pointer. -/
def getBlock (c : Cache) (n now : Nat) : Outcome (Option Bytes × Cache) :=
  match c.blocks[n]? with
  | none => .ok (none, c)
  | some (some b) => .ok (some b.data, { c with blocks := c.blocks.set n (some { b with last := now }) })
  | some none => do
    let (fs, d) ← create c.fs c.page n false true
    .ok (some d, { c with fs := fs, blocks := c.blocks.set n (some ⟨d, false, now⟩) })

/-- `MemBlockManager::get_block_for_write` (MemBlock.cpp:101-115) followed by the
caller's modification `f` through the returned pointer. -/
def putBlock (c : Cache) (n : Nat) (read : Bool) (f : Bytes → Bytes) (now : Nat) :
    Outcome (Option Unit × Cache) :=
  if n > c.blocks.length then .ok (none, c)
  else
    let blocks := if n = c.blocks.length then c.blocks ++ [none] else c.blocks
    match blocks[n]? with
    | none => .ok (none, c)  -- unreachable
    | some (some b) => .ok (some (), { c with blocks := blocks.set n (some ⟨f b.data, true, now⟩) })
    | some none => do
      let (fs, d) ← create c.fs c.page n true read
      .ok (some (), { c with fs := fs, blocks := blocks.set n (some ⟨f d, true, now⟩) })

/-- Whether `garbage` drops a block (MemBlock.cpp:76-85); `LIVE_CASH` is 5
(Constants.h), the sum is a 32-bit one. -/
def dies (aggressive : Bool) (now : Nat) (b : Blk) : Bool :=
  !b.changed && (aggressive || decide ((b.last + 5 * 60 * 1000) % 2 ^ 32 ≤ now))

/-- `MemBlockManager::garbage` (MemBlock.cpp:70-88). -/
def garbage (c : Cache) (aggressive : Bool) (now : Nat) : Cache :=
  { c with blocks := c.blocks.map fun
      | some b => if dies aggressive now b then none else some b
      | none => none }

/-- `MemBlock::write` (MemBlock.cpp:154-162). -/
def writeBlk (fs : FileS) (page n : Nat) (b : Blk) : Outcome (FileS × Blk) :=
  if !b.changed then .ok (fs, b)
  else do
    let fs ← fs.seek (n * page)
    .ok ((fs.write b.data).2, { b with changed := false })

/-- The loop of `MemBlockManager::flush` (MemBlock.cpp:144-151). -/
def flushLoop (page : Nat) : FileS → Nat → List (Option Blk) → Outcome (FileS × List (Option Blk))
  | fs, _, [] => .ok (fs, [])
  | fs, n, none :: bs => do
    let (fs, bs') ← flushLoop page fs (n + 1) bs
    .ok (fs, none :: bs')
  | fs, n, some b :: bs => do
    let (fs, b') ← writeBlk fs page n b
    let (fs, bs') ← flushLoop page fs (n + 1) bs
    .ok (fs, some b' :: bs')

/-- Serves the model of Class_1CD.cpp:571-574. -/
def flush (c : Cache) : Outcome Cache := do
  let (fs, bs) ← flushLoop c.page c.fs 0 c.blocks
  .ok { c with fs := fs, blocks := bs }

/-! ## The database (Class_1CD.cpp) -/

/-- `T_1CD` as far as pages go: the cache and `length`. Serves the model of Class_1CD.cpp:321. -/
structure Db where
  c : Cache
  length : Nat
  deriving DecidableEq, Repr

/-- `create_memblocks(length)` after the checks of `T_1CD::open` (Class_1CD.cpp:321):
nothing cached. -/
def Db.open (file : Bytes) (page : Nat) : Db :=
  ⟨⟨page, FileS.open file, List.replicate (file.length / page) none⟩, file.length / page⟩

/-- `T_1CD::get_block(uint32_t)` (Class_1CD.cpp:73-85). A null pointer from the cache
would be dereferenced by the caller. -/
def Db.getBlock (d : Db) (n now : Nat) : Outcome (Bytes × Db) :=
  if n ≥ d.length then .throw
  else do
    let (r, c) ← Cache.getBlock d.c n now
    match r with
    | none => .ub
    | some b => .ok (b, { d with c := c })

/-- Overwrite `v8con::length` at offset 12 of page 0 (Class_1CD.cpp:106-107). -/
def setLength (n : Nat) (p : Bytes) : Bytes := p.take 12 ++ le32 n ++ p.drop 16

/-- `T_1CD::get_block_for_write` (Class_1CD.cpp:88-111) and the caller's modification. -/
def Db.putBlock (d : Db) (n : Nat) (read : Bool) (f : Bytes → Bytes) (now : Nat) : Outcome Db :=
  if n > d.length then .throw
  else do
    let d ← (if n = d.length then do
        let fs := d.c.fs.setSize (d.c.fs.size + d.c.page)
        let (r, c) ← Cache.putBlock { d.c with fs := fs } 0 true (setLength (d.length + 1)) now
        match r with
        | none => .ub
        | some () => .ok { c := c, length := d.length + 1 }
      else .ok d)
    let (r, c) ← Cache.putBlock d.c n read f now
    match r with
    | none => .ub
    | some () => .ok { d with c := c }

/-- `memBlockManager.garbage` (Class_1CD.cpp:471). -/
def Db.garbage (d : Db) (aggressive : Bool) (now : Nat) : Db :=
  { d with c := Cache.garbage d.c aggressive now }

/-- `T_1CD::flush` (Class_1CD.cpp:571-574). -/
def Db.flush (d : Db) : Outcome Db := do
  let c ← Cache.flush d.c
  .ok { d with c := c }

end Verif.Cache
