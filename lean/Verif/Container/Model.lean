import Verif.Stream.Model

/-!
# Container pages and block chains (src/tool1cd/cfapi/APIcfBase.{h,cpp}, V8Catalog.cpp)

A container is a stream (`V8Catalog::data`, here the memory stream of
`Verif.Stream`, which is what nested catalogs and catalogs opened through a file
use) plus the file header kept in memory. Locks are not modelled: the model is
one thread inside `Lock`. `int32_t` numbers are natural numbers; a container
smaller than 2 GiB, as the theorems assume, keeps all of them in range. Loops
carry a `fuel` argument; `none` means that the loop is still running after
`fuel` turns.
-/

namespace Verif.Container
open Verif Verif.Stream

/-- `LAST_BLOCK` (APIcfBase.h:40). -/
def LAST : Nat := 0x7fffffff

/-- `stFileHeader::size()` (APIcfBase.h:70-73). -/
def fileHeaderSize : Nat := 16

/-- `stBlockHeader::size()` (APIcfBase.h:89-92). -/
def hdrSize : Nat := 31

/-- One character of `std::hex <<` (Common.h:57-58). -/
def hexDigit (n : Nat) : UInt8 := if n < 10 then UInt8.ofNat (48 + n) else UInt8.ofNat (87 + n)

/-- `to_hex_string(value, false)` for a 32-bit value: eight digits, zero-filled
(Common.h:51-60). -/
def hex8 (v : Nat) : Bytes :=
  [hexDigit (v / 268435456 % 16), hexDigit (v / 16777216 % 16), hexDigit (v / 1048576 % 16),
   hexDigit (v / 65536 % 16), hexDigit (v / 4096 % 16), hexDigit (v / 256 % 16),
   hexDigit (v / 16 % 16), hexDigit (v % 16)]

/-- The value of a hex digit as `strtol` sees it. Serves the model of APIcfBase.cpp:35-40, 51-56, 67-72. -/
def hexVal (b : UInt8) : Option Nat :=
  if 48 ≤ b ∧ b ≤ 57 then some (b.toNat - 48)
  else if 97 ≤ b ∧ b ≤ 102 then some (b.toNat - 87)
  else if 65 ≤ b ∧ b ≤ 70 then some (b.toNat - 55)
  else none

/-- The digits `strtol` consumes; `none` when they run to the end of the header
object, beyond which the memory is unknown. Serves the model of APIcfBase.cpp:35-40, 51-56, 67-72. -/
def stoiRun : Nat → Bytes → Option Nat
  | _, [] => none
  | acc, b :: bs =>
    match hexVal b with
    | some d => stoiRun (acc * 16 + d) bs
    | none => some acc

/-- The getters (APIcfBase.cpp:35-40, 51-56, 67-72): `"0x"` followed by the field and,
because the `char[8]` has no terminator, by whatever follows it up to the next
NUL; `std::stoi(…, 16)` stops at the first character that is no hex digit and
throws `out_of_range` above `INT_MAX`. With no digit at all the text is `"0x"`,
which `strtol` reads as 0. The append's reading beyond the header object is not
modelled as undefined unless a digit run gets there. -/
def getField (hdr : Bytes) (off : Nat) : Outcome Nat :=
  match stoiRun 0 (hdr.drop off) with
  | none => .ub
  | some v => if v > 0x7fffffff then .throw else .ok v

/-- Offsets of the three numbers in the header (APIcfBase.h:126-135). -/
def dataSizeOff : Nat := 2
/-- Serves the model of APIcfBase.cpp:84-93. -/
def pageSizeOff : Nat := 11
/-- Serves the model of APIcfBase.cpp:84-93. -/
def nextOff : Nat := 20

/-- The setters (APIcfBase.cpp:42-49, 58-65, 74-81): the eight digits are copied over
the field. -/
def setField (hdr : Bytes) (off v : Nat) : Bytes := hdr.take off ++ hex8 v ++ hdr.drop (off + 8)

/-- The default constructor (APIcfBase.h:80-84, 126-135). -/
def defaultHdr : Bytes :=
  [0x0d, 0x0a] ++ List.replicate 8 0 ++ [0x20] ++ List.replicate 8 0 ++ [0x20] ++
    List.replicate 8 0 ++ [0x20, 0x0d, 0x0a]

/-- `stBlockHeader::create` (APIcfBase.cpp:84-93). -/
def createHdr (ds p n : Nat) : Bytes :=
  setField (setField (setField defaultHdr dataSizeOff ds) pageSizeOff p) nextOff n

/-- `is_correct` (APIcfBase.h:94-103). -/
def isCorrect (hdr : Bytes) : Bool :=
  hdr[0]? == some 0x0d && hdr[1]? == some 0x0a && hdr[10]? == some 0x20 && hdr[19]? == some 0x20 &&
    hdr[28]? == some 0x20 && hdr[29]? == some 0x0d && hdr[30]? == some 0x0a

/-- `Seek(start, soFromBeginning)`. Serves the model of V8Catalog.cpp:66-79. -/
def seekB (m : Mem) (n : Nat) : Outcome Mem :=
  match m.seek n .begin with
  | (true, m') => .ok m'
  | (false, _) => .throw

/-- `Read(&block_header, 31)`: a short read leaves the tail of the object as it was. Serves the model of V8Catalog.cpp:66-79. -/
def readHdr (hdr : Bytes) (m : Mem) : Outcome (Bytes × Mem) := do
  let (got, m') ← m.read hdrSize
  .ok (got ++ hdr.drop got.length, m')

/-! ## Reading a block -/

/-- The `while(start != LAST_BLOCK)` loop of `read_block` (V8Catalog.cpp:66-79). -/
def readLoop : Nat → Mem → Bytes → Mem → Nat → Nat → Nat → Outcome (Option Mem)
  | 0, _, _, _, _, _, _ => .ok none
  | fuel + 1, src, hdr, dst, start, len, pos =>
    if start = LAST then .ok (some dst)
    else do
      let src ← seekB src start
      let (hdr, src) ← readHdr hdr src
      let curlen ← getField hdr pageSizeOff
      let start' ← getField hdr nextOff
      let readlen := min (len - pos) curlen
      let (_, dst, src) ← copyFrom dst src readlen
      readLoop fuel src hdr dst start' len (pos + readlen)

/-- `read_block` (V8Catalog.cpp:34-83) into an empty stream. -/
def readBlock (fuel : Nat) (src : Mem) (start : Nat) : Outcome (Option Mem) :=
  if start = LAST ∨ start > src.data.length then .ok (some Mem.empty)
  else do
    let src ← seekB src start
    let (hdr, src) ← readHdr defaultHdr src
    let len ← getField hdr dataSizeOff
    if len = 0 then .ok (some Mem.empty)
    else do
      let curlen ← getField hdr pageSizeOff
      let start' ← getField hdr nextOff
      let readlen := min len curlen
      let (_, dst, src) ← copyFrom Mem.empty src readlen
      readLoop fuel src hdr dst start' len readlen

/-! ## Writing and freeing blocks -/

/-- The parts of `V8Catalog` these functions use: `data`, `file_header.next_page_addr`
(first free page), `file_header.page_size`, and the two "modified" flags
(V8Catalog.h). -/
structure Cat where
  data : Mem
  next : Nat
  pageSize : Nat
  emptyMod : Bool
  modified : Bool
  deriving DecidableEq, Repr

/-- `get_nextblock` (V8Catalog.cpp:560-573). -/
def nextBlock (c : Cat) (start : Nat) : Nat :=
  if start = 0 ∨ start = LAST then (if c.next = LAST then c.data.data.length else c.next)
  else start

/-- The `do … while` loop of `free_block` (V8Catalog.cpp:490-505). -/
def freeLoop : Nat → Mem → Bytes → Nat → Nat → Outcome (Option Mem)
  | 0, _, _, _, _ => .ok none
  | fuel + 1, m, hdr, prevEmpty, start => do
    let m ← seekB m start
    let (hdr, m) ← readHdr hdr m
    let nextstart ← getField hdr nextOff
    let hdr := setField hdr dataSizeOff LAST
    let hdr := if nextstart = LAST then setField hdr nextOff prevEmpty else hdr
    let m ← seekB m start
    let (_, m) ← m.write (hdr.take hdrSize)
    if nextstart = LAST then .ok (some m) else freeLoop fuel m hdr prevEmpty nextstart

/-- `free_block` (V8Catalog.cpp:477-510). -/
def freeBlock (fuel : Nat) (c : Cat) (start : Nat) : Outcome (Option Cat) :=
  if start = 0 ∨ start = LAST then .ok (some c)
  else do
    match ← freeLoop fuel c.data defaultHdr c.next start with
    | none => .ok none
    | some m => .ok (some { c with data := m, next := start, emptyMod := true, modified := true })

/-- One turn of the loop of `write_block` up to the choice of page
(V8Catalog.cpp:597-627): the catalog, header, page size, `nextstart` (0 for a new
page) and the `addwrite` flag. -/
def pickPage (c : Cat) (hdr : Bytes) (start len : Nat) (usePageSize : Bool) :
    Outcome (Cat × Bytes × Nat × Nat × Bool) :=
  if start = c.next then do
    let m ← seekB c.data start
    let (hdr, m) ← readHdr hdr m
    let blocklen ← getField hdr pageSizeOff
    let nextstart ← getField hdr nextOff
    .ok ({ c with data := m, next := nextstart, emptyMod := true }, hdr, blocklen, nextstart, false)
  else if start = c.data.data.length then
    let blocklen := if usePageSize then (if len > c.pageSize then len else c.pageSize) else len
    .ok (c, setField (createHdr 0 0 0) pageSizeOff blocklen, blocklen, 0, blocklen > len)
  else do
    let m ← seekB c.data start
    let (hdr, m) ← readHdr hdr m
    let blocklen ← getField hdr pageSizeOff
    let nextstart ← getField hdr nextOff
    .ok ({ c with data := m }, hdr, blocklen, nextstart, false)

/-- `if(addwrite)` (V8Catalog.cpp:645-650): zeros up to the page size. -/
def padWrite (m : Mem) (n : Nat) : Bool → Outcome Mem
  | false => .ok m
  | true => do let (_, m) ← m.write (List.replicate n 0); .ok m

/-- The rest of the turn (V8Catalog.cpp:629-652): the page is written. Result: the
catalog, the source, the header, `curlen` and the new `start`. -/
def putPage (c : Cat) (blk : Mem) (hdr : Bytes) (start len blocklen nextstart : Nat)
    (addwrite first : Bool) : Outcome (Cat × Mem × Bytes × Nat × Nat) := do
  let hdr := setField hdr dataSizeOff (if first then len else 0)
  let curlen := min blocklen len
  let nextstart := if nextstart = 0 then c.data.data.length + 31 + blocklen else nextBlock c nextstart
  let hdr := setField hdr nextOff (if len ≤ blocklen then LAST else nextstart)
  let m ← seekB c.data start
  let (_, m) ← m.write (hdr.take hdrSize)
  let (_, m, blk) ← copyFrom m blk curlen
  let m ← padWrite m (blocklen - len) addwrite
  .ok ({ c with data := m }, blk, hdr, curlen, nextstart)

/-- The `do … while(len > 0)` loop of `write_block` (V8Catalog.cpp:595-661): the
catalog and the final `start`. -/
def writeLoop : Nat → Cat → Mem → Bytes → Nat → Nat → Bool → Bool → Outcome (Option (Cat × Nat))
  | 0, _, _, _, _, _, _, _ => .ok none
  | fuel + 1, c, blk, hdr, start, len, usePageSize, first => do
    let (c, hdr, blocklen, nextstart, addwrite) ← pickPage c hdr start len usePageSize
    let (c, blk, hdr, curlen, start') ← putPage c blk hdr start len blocklen nextstart addwrite first
    if len - curlen > 0 then writeLoop fuel c blk hdr start' (len - curlen) usePageSize false
    else .ok (some (c, start'))

/-- `write_block` after the first-page check (V8Catalog.cpp:588-668): the catalog and
the address of the first page. `len = none` is the default `-1`. -/
def writeCore (fuel : Nat) (c : Cat) (blk : Mem) (start : Nat) (usePageSize : Bool) (len : Option Nat) :
    Outcome (Option (Cat × Nat)) := do
  let blk' := match len with | none => { blk with pos := 0 } | some _ => blk
  let n := match len with | none => blk.data.length | some n => n
  let first := nextBlock c start
  match ← writeLoop fuel c blk' defaultHdr first n usePageSize true with
  | none => .ok none
  | some (c, last) =>
    if last < c.data.data.length ∧ last ≠ c.next then do
      match ← freeBlock fuel c last with
      | none => .ok none
      | some c => .ok (some ({ c with modified := true }, first))
    else .ok (some ({ c with modified := true }, first))

/-- `write_block` (V8Catalog.cpp:577-668). A container of just the file header first
gets its page at 16. -/
def writeBlock (fuel : Nat) (c : Cat) (blk : Mem) (start : Nat) (usePageSize : Bool)
    (len : Option Nat) : Outcome (Option (Cat × Nat)) := do
  if c.data.data.length = fileHeaderSize ∧ start ≠ fileHeaderSize then do
    match ← writeCore fuel c Mem.empty fileHeaderSize true none with
    | none => .ok none
    | some (c, _) => writeCore fuel c blk start usePageSize len
  else writeCore fuel c blk start usePageSize len

end Verif.Container
