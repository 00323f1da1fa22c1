import Verif.Object.Write

/-!
# Blob files (Table.cpp:729-873, 1721-1763, 1822-1941; V8Object.cpp:1417-1476)

The internal file that holds the blob fields of a table is the sequence of bytes
seen through `get_data`/`set_data`; that those behave like an array of bytes is the
subject of C20-C25. Simplifications: `set_data` never runs out of room and the
database is writable (the callers check `edit`); a store beyond the end would leave
unspecified bytes in the gap, here zeros (block-aligned files have no such stores).
`none` as a result of a loop: still running after that many turns.
-/

namespace Verif.Blob
open Verif Object

/-- `get_data(buf, start, n)`: throws outside the file (C22). Serves the model of V8Object.cpp:1446-1465. -/
def getData (f : Bytes) (start n : Nat) : Outcome Bytes :=
  if start + n ≤ f.length then .ok ((f.drop start).take n) else .throw

/-- `get_data(&word, start, 4)`. Serves the model of Table.cpp:1918-1919. -/
def getWord (f : Bytes) (start : Nat) : Outcome Nat := do
  let b ← getData f start 4
  rd32 b 0

/-- `set_data(buf, start, size)` (C23, C25). Serves the model of Table.cpp:1919-1923. -/
def setData (f : Bytes) (start : Nat) (b : Bytes) : Bytes :=
  f.take start ++ List.replicate (start - f.length) 0 ++ b ++ f.drop (start + b.length)

/-- `block << 8` in 32 bits. Serves the model of V8Object.cpp:1446-1465. -/
def shl8 (b : Nat) : Nat := b * 256 % 2 ^ 32

/-- A 16-bit little-endian load. Serves the model of V8Object.cpp:1446-1465. -/
def rd16 (p : Bytes) (off : Nat) : Outcome Nat :=
  match p[off]?, p[off + 1]? with
  | some a, some b => .ok (a.toNat + 256 * b.toNat)
  | _, _ => .ub

/-- A 16-bit little-endian store. Serves the model of Table.cpp:1919-1923. -/
def le16 (n : Nat) : Bytes := [UInt8.ofNat n, UInt8.ofNat (n / 256)]

/-! ## Reading -/

/-- One turn of the reading loops (V8Object.cpp:1446-1465, Table.cpp:759-777,
833-854): the bytes of block `cur` and the number of the next block. -/
def readBlock (f : Bytes) (numblock cur : Nat) : Outcome (Nat × Bytes) :=
  if cur ≥ numblock then .throw
  else do
    let b ← getData f (shl8 cur) 256
    let nx ← rd32 b 0
    let n ← rd16 b 4
    if n > 250 then .throw else .ok (nx, (b.drop 6).take n)

/-- The loop of the stream variants: `acc` is what has been appended to the stream. Serves the model of V8Object.cpp:1417-1476. -/
def readLoop (f : Bytes) (numblock length : Nat) : Nat → Nat → Bytes → Outcome (Option Bytes)
  | 0, _, _ => .ok none
  | fuel + 1, cur, acc =>
    if cur = 0 then .ok (some acc)
    else do
      let (nx, d) ← readBlock f numblock cur
      if (acc ++ d).length > length then .ok (some (acc ++ d))
      else readLoop f numblock length fuel nx (acc ++ d)

/-- `V8Object::readBlob` (V8Object.cpp:1417-1476): the bytes appended to the stream, which
is empty (`rewrite`) or positioned at its end. -/
def readBlobObject (f : Bytes) (fuel start length : Nat) : Outcome (Option Bytes) :=
  if start = 0 ∧ length ≠ 0 then .throw
  else
    let numblock := f.length / 256 % 2 ^ 32
    if shl8 numblock ≠ f.length then .throw
    else do
      match ← readLoop f numblock length fuel start [] with
      | none => .ok none
      | some acc => if length ≠ 2 ^ 32 - 1 ∧ acc.length ≠ length then .throw else .ok (some acc)

/-- `Table::readBlob(TStream*, …)` (Table.cpp:729-798): a length that differs is only
logged. `none` as file: the table has no blob file. -/
def readBlobTable (f? : Option Bytes) (fuel start length : Nat) : Outcome (Option Bytes) :=
  if start = 0 ∧ length ≠ 0 then .throw
  else
    match f? with
    | none => .throw
    | some f =>
      let filelen := f.length % 2 ^ 32
      if shl8 (filelen / 256) ≠ filelen then .throw
      else readLoop f (filelen / 256) length fuel start []

/-- The loop of the buffer variant (Table.cpp:831-855): `cap` is the size of the caller's
buffer; the block is copied before the check. -/
def readLoopBuf (f : Bytes) (numblock length cap : Nat) : Nat → Nat → Bytes → Outcome (Option Bytes)
  | 0, _, _ => .ok none
  | fuel + 1, cur, acc =>
    if cur = 0 then .ok (some acc)
    else do
      let (nx, d) ← readBlock f numblock cur
      if (acc ++ d).length > cap then .ub
      else if (acc ++ d).length > length then .ok (some (acc ++ d))
      else readLoopBuf f numblock length cap fuel nx (acc ++ d)

/-- `Table::readBlob(void*, …)` (Table.cpp:801-873): the bytes stored in the buffer. -/
def readBlobBuf (f? : Option Bytes) (fuel start length cap : Nat) : Outcome (Option Bytes) :=
  if start = 0 ∧ length ≠ 0 then .throw
  else
    match f? with
    | none => .throw
    | some f =>
      let filelen := f.length % 2 ^ 32
      if shl8 (filelen / 256) ≠ filelen then .throw
      else readLoopBuf f (filelen / 256) length cap fuel start []

/-! ## Storing -/

/-- The buffer of the stream variant before it is stored (Table.cpp:1911-1913). -/
def packStream (data : Bytes) : Outcome Bytes :=
  .ok (data.take 250 ++ List.replicate (250 - data.length) 0)

/-- The caller's buffer in the other variant (Table.cpp:1855-1856): a last piece shorter
than 250 bytes is overwritten with zeros first, and so are the bytes behind the
buffer; harmless only if at least `slack` bytes behind it are unused. -/
def packChars (slack : Nat) (data : Bytes) : Outcome Bytes :=
  if data.length < 250 then
    if 250 - data.length ≤ slack then .ok (List.replicate 250 0) else .ub
  else .ok (data.take 250)

/-- The three stores into block `cur` (Table.cpp:1919-1923). -/
def putBlock (f : Bytes) (cur n : Nat) (rec : Bytes) : Bytes :=
  let off := shl8 cur
  setData (setData (setData f off (le32 0)) (off + 4) (le16 n)) (off + 6) rec

/-- The next block of the free chain, 0 if `cur` lies behind the file
(Table.cpp:1918-1919). -/
def nextFree (f : Bytes) (cur : Nat) : Outcome Nat :=
  if shl8 cur < f.length then getWord f (shl8 cur) else .ok 0

/-- The loop (Table.cpp:1908-1927, 1853-1872); the result also has the value of
`next_block` after it. -/
def writeLoop (pack : Bytes → Outcome Bytes) : Nat → Bytes → Nat → Nat → Bytes → Outcome (Bytes × Nat)
  | 0, f, _, cur, data => if data = [] then .ok (f, cur) else .ub
  | fuel + 1, f, prev, cur, data =>
    if data = [] then .ok (f, cur)
    else do
      let rec ← pack data
      let f1 := if prev ≠ 0 then setData f prev (le32 cur) else f
      let nx ← nextFree f1 cur
      let f2 := putBlock f1 cur (min data.length 250) rec
      let nx := if nx = 0 then f2.length / 256 % 2 ^ 32 else nx
      writeLoop pack fuel f2 (shl8 cur) nx (data.drop 250)

/-- `write_blob_record` (Table.cpp:1874-1941 with `packStream`; 1822-1871 with
`packChars`): the file and the number of the first block. A missing blob file is not
created (`create_file_blob` returns at once, Table.cpp:1639-1644) and then
dereferenced. `fuel` bounds the turns by the number of bytes. -/
def writeBlob (pack : Bytes → Outcome Bytes) (f? : Option Bytes) (data : Bytes) : Outcome (Option Bytes × Nat) :=
  if data = [] then .ok (f?, 0)
  else
    match f? with
    | none => .ub
    | some f => do
      let head ← getWord f 0
      let first := if head = 0 then f.length / 256 % 2 ^ 32 else head
      let (f, nx) ← writeLoop pack data.length f 0 first data
      .ok (some (if shl8 nx < f.length then setData f 0 (le32 nx) else setData f 0 (le32 0)), first)

/-! ## Deleting -/

/-- The search for the last block of the chain (Table.cpp:1760). -/
def lastBlock (f : Bytes) : Nat → Nat → Nat → Outcome (Option Nat)
  | 0, _, _ => .ok none
  | fuel + 1, i, j =>
    if i = 0 then .ok (some j)
    else do
      let nx ← getWord f (shl8 i)
      lastBlock f fuel nx i

/-- `delete_blob_record` (Table.cpp:1721-1763). -/
def deleteBlob (f? : Option Bytes) (fuel b : Nat) : Outcome (Option Bytes) :=
  match f? with
  | none => .throw
  | some f =>
    if shl8 b ≥ f.length then .throw
    else if b = 0 then .throw
    else do
      let free ← getWord f 0
      match ← lastBlock f fuel b 0 with
      | none => .ok none
      | some j => .ok (some (setData (setData f (shl8 j) (le32 free)) 0 (le32 b)))

end Verif.Blob
