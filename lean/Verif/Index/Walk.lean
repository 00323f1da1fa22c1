import Verif.Index.Leaf
import Verif.Blob.Model

/-! # Reading an index

Models `Index::create_recordsindex` and the two accessors that call it
(src/tool1cd/Index.cpp:69-152): the record numbers of a table in the order of an index. -/

namespace Verif.Index
open Verif Blob

/-- What the walk reads: the table's index file, the page size, whether the base has format
8.3.8 or later, where the index begins, and how many records the data file has room for. Serves the model of Index.cpp:104, 119, 142. -/
structure Base where
  file : Bytes
  pagesize : Nat
  v838 : Bool
  start : Nat
  room : Nat
  deriving DecidableEq, Repr

/-- `if(version >= db_ver::ver8_3_8_0) curblock *= pagesize` (Index.cpp:104, 119, 142). -/
def Base.offset (b : Base) (n : Nat) : Nat := if b.v838 then n * b.pagesize else n

/-- `file_index->get_data(buf, curblock, pagesize)` (Index.cpp:109, 120, 143). -/
def Base.page (b : Base) (n : Nat) : Outcome Bytes := getData b.file (b.offset n) b.pagesize

/-- An `int16_t` with these bits. Serves the model of Index.cpp:126-144. -/
def int16 (n : Nat) : Int := if n < 2 ^ 15 then n else (n : Int) - 2 ^ 16

/-- Reading bytes of the page at an offset that may be negative. Serves the model of Index.cpp:133-140. -/
def rdAt (p : Bytes) (off : Int) (k : Nat) : Outcome Nat := if off < 0 then .ub else rd p off.toNat k

/-- `reverse_byte_order(*(uint32_t*)...)` (Index.cpp:117-118). -/
def rdBe (p : Bytes) (off : Int) : Outcome Nat :=
  if off < 0 ∨ p.length < off.toNat + 4 then .ub else .ok (ofLe ((p.drop off.toNat).take 4).reverse)

/-- `while(!is_leaf)` (Index.cpp:115-123): down along the first entries. `none`: still going after that
many pages. -/
def descend (b : Base) (length : Int) : Nat → Bytes → Outcome (Option Bytes)
  | 0, _ => .ok none
  | f + 1, page => do
    let flags ← rd page 0 1
    if flags &&& 2 ≠ 0 then .ok (some page)
    else do
      let child ← rdBe page (16 + length)
      let page' ← b.page child
      descend b length f page'

/-- `for (i = 0; i < curlen; i++)` (Index.cpp:133-140): the record numbers of one page. -/
def leafNums (page : Bytes) (mask : Nat) (rlen : Int) : Nat → Int → Outcome (List Nat)
  | 0, _ => .ok []
  | n + 1, pos => do
    let w ← rdAt page pos 4
    let r ← leafNums page mask rlen n (pos + rlen)
    .ok ((w &&& mask) :: r)

/-- `while(true)` (Index.cpp:126-144): along the leaf pages; `done` are the numbers stored so far.
Storing beyond the size given to the vector (line 113) is undefined. The numbers of a page are
read before they are stored; both orders are undefined in the same cases. -/
def chain (b : Base) : Nat → Bytes → List Nat → Outcome (Option (List Nat))
  | 0, _, _ => .ok none
  | f + 1, page, done => do
    let curlen ← rd page 2 2
    let next ← rd page 8 4
    let mask ← rd page 14 4
    let rlen ← rd page 28 2
    let nums ← leafNums page mask (int16 rlen) (int16 curlen).toNat 30
    if done.length + nums.length > b.room then .ub
    else if next = 4294967295 then .ok (some (done ++ nums))
    else do
      let page' ← b.page next
      chain b f page' (done ++ nums)

/-- `create_recordsindex` (Index.cpp:86-152): `some` is the finished vector. Without a start offset
nothing is done and the vector stays empty. -/
def walk (b : Base) (fuel : Nat) : Outcome (Option (List Nat)) :=
  if b.start = 0 then .ok (some [])
  else do
    let h ← getData b.file b.start 8
    let root ← rd h 0 4
    let length ← rd h 4 2
    let page ← b.page root
    let curlen ← rd page 2 2
    if curlen = 0 then .ok (some [])
    else do
      let leaf ← descend b (int16 length) fuel page
      match leaf with
      | none => .ok none
      | some leaf => chain b fuel leaf []

/-- `get_numrecords` (Index.cpp:69-74). -/
def numRecords (b : Base) (fuel : Nat) : Outcome (Option Nat) := do
  let r ← walk b fuel
  .ok (r.map List.length)

/-- `get_numrec` (Index.cpp:77-83): the element is not checked to exist. -/
def numRec (b : Base) (fuel i : Nat) : Outcome (Option Nat) :=
  if b.start = 0 then .ok (some 0)
  else do
    let r ← walk b fuel
    match r with
    | none => .ok none
    | some l => match l[i]? with
      | some x => .ok (some x)
      | none => .ub

end Verif.Index
