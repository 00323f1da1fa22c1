import Verif.Object.Base

/-! # Reading objects (V8Object.cpp:309-642) -/

namespace Verif.Object
open Verif

/-- The loop of the direct formats (V8Object.cpp:426-436 for the free-page file,
536-548 for one-level files). `fuel` bounds the iterations; every iteration
consumes at least a byte. -/
def dirLoop (pages : List Bytes) (P : Nat) (blocks : List Nat) :
    Nat → Nat → Nat → Nat → Nat → Outcome Bytes
  | 0, _, _, _, length => if length = 0 then .ok [] else .ub
  | fuel + 1, curblock, off, curlen, length =>
    if length = 0 then .ok []
    else do
      let bn ← idx blocks curblock
      let p ← getPage pages bn
      let rest ← dirLoop pages P blocks fuel (curblock + 1) 0 (min P (length - curlen)) (length - curlen)
      .ok ((p.drop off).take curlen ++ rest)

/-- The loop of the two-level formats (V8Object.cpp:462-480 with `per = 1023`,
`hdr = 4`; 511-530 with `per = pagesize / 4`, `hdr = 0`). `tab` is the current
allocation table page, `j` the index in it, `oi` the next root index. -/
def tabLoop (pages : List Bytes) (P per hdr : Nat) (blocks : List Nat) :
    Nat → Bytes → Nat → Nat → Nat → Nat → Nat → Outcome Bytes
  | 0, _, _, _, _, _, length => if length = 0 then .ok [] else .ub
  | fuel + 1, tab, j, oi, off, curlen, length =>
    if length = 0 then .ok []
    else do
      let bn ← rd32 tab (hdr + 4 * j)
      let p ← getPage pages bn
      let length' := length - curlen
      let rest ←
        if length' > 0 ∧ j + 1 ≥ per then do
          let tn ← idx blocks oi
          let tab' ← getPage pages tn
          tabLoop pages P per hdr blocks fuel tab' 0 (oi + 1) 0 (min P length') length'
        else tabLoop pages P per hdr blocks fuel tab (j + 1) oi 0 (min P length') length'
      .ok ((p.drop off).take curlen ++ rest)

/-- The two-level branch of the partial read: find the table, then loop
(V8Object.cpp:449-481, 496-531). The 32-bit block arithmetic gives `start / P` and
`start % P` for every start the length check lets through. -/
def tabRead (pages : List Bytes) (P per hdr : Nat) (blocks : List Nat) (start length : Nat) :
    Outcome Bytes := do
  let curblock := start / P % 2 ^ 32
  let off := start % P
  let curlen := min (P - off) length
  let tn ← idx blocks (curblock / per)
  let tab ← getPage pages tn
  tabLoop pages P per hdr blocks length tab (curblock % per) (curblock / per + 1) off curlen length

/-- The direct branch of the partial read. Serves the model of V8Object.cpp:399-559. -/
def dirRead (pages : List Bytes) (P : Nat) (blocks : List Nat) (start length : Nat) : Outcome Bytes :=
  let off := start % P
  dirLoop pages P blocks length (start / P % 2 ^ 32) off (min (P - off) length) length

/-- `V8Object::get_data(void*, uint64_t, uint64_t)` (V8Object.cpp:399-559). The
check is in 64-bit arithmetic. For the free-page file of 8.3.8 the buffer is
returned unfilled. -/
def getPart (pages : List Bytes) (P : Nat) (o : Obj) (start length : Nat) : Outcome Bytes :=
  match o.data with
  | some d => if start + length ≤ d.length then .ok ((d.drop start).take length) else .ub
  | none =>
    match o.kind with
    | .free80 =>
      if (start + length) % 2 ^ 64 > o.len * 4 then .throw
      else dirRead pages 4096 o.blocks start length
    | .data80 =>
      if (start + length) % 2 ^ 64 > o.len then .throw
      else tabRead pages 4096 1023 4 o.blocks start length
    | .data838 =>
      if (start + length) % 2 ^ 64 > o.len then .throw
      else if o.fatlevel ≠ 0 then tabRead pages P (P / 4) 0 o.blocks start length
      else dirRead pages P o.blocks start length
    | .free838 => if length = 0 then .ok [] else .ub

/-- `V8Object::get_len` (V8Object.cpp:562-566). -/
def getLen (o : Obj) : Nat := if o.kind = .free80 then o.len * 4 else o.len

/-- Inner loop of the whole read (V8Object.cpp:343-350, 367-374): `count` entries of a
table from `j`. Returns the bytes, the length still wanted, and whether the end was
reached (`l <= curlen`). -/
def wholeTab (pages : List Bytes) (P hdr : Nat) (tab : Bytes) :
    Nat → Nat → Nat → Outcome (Bytes × Nat × Bool)
  | 0, _, l => .ok ([], l, false)
  | count + 1, j, l => do
    let curlen := min P l
    let bn ← rd32 tab (hdr + 4 * j)
    let p ← getPage pages bn
    if l ≤ curlen then .ok (p.take curlen, l - curlen, true)
    else do
      let (r, l', e) ← wholeTab pages P hdr tab count (j + 1) (l - curlen)
      .ok (p.take curlen ++ r, l', e)

/-- The number of entries the inner loop visits (V8Object.cpp:343, 367). -/
def tabCount (counted : Bool) (per : Nat) (tab : Bytes) : Outcome Nat :=
  if counted then do
    let c ← rd32 tab 0
    .ok (if c < 2 ^ 31 then c else 0)
  else .ok per

/-- Outer loop over the root entries (V8Object.cpp:340-352, 364-377). `counted` says
whether the table begins with its number of entries (8.0 format: a signed number, a
negative one gives no iterations). Running out of tables leaves the rest of the
buffer uninitialised. -/
def wholeLoop (pages : List Bytes) (P per hdr : Nat) (counted : Bool) :
    List Nat → Nat → Outcome Bytes
  | [], l => if l = 0 then .ok [] else .ub
  | tn :: ts, l => do
    let tab ← getPage pages tn
    let count ← tabCount counted per tab
    let (r, l', e) ← wholeTab pages P hdr tab count 0 l
    if e then .ok r
    else do
      let rest ← wholeLoop pages P per hdr counted ts l'
      .ok (r ++ rest)

/-- The whole read of the direct formats (V8Object.cpp:325-334, 380-390). -/
def wholeDir (pages : List Bytes) (P : Nat) : List Nat → Nat → Outcome Bytes
  | [], l => if l = 0 then .ok [] else .ub
  | bn :: bs, l => do
    let p ← getPage pages bn
    if l ≤ min P l then .ok (p.take (min P l))
    else do
      let rest ← wholeDir pages P bs (l - min P l)
      .ok (p.take (min P l) ++ rest)

/-- The branches of `V8Object::get_data()` (V8Object.cpp:320-394). -/
def wholeBytes (pages : List Bytes) (P : Nat) (o : Obj) : Outcome Bytes :=
  match o.kind with
  | .free80 => wholeDir pages 4096 o.blocks (o.len * 4 % 2 ^ 32)
  | .data80 => wholeLoop pages 4096 1023 4 true (o.blocks.take o.numblocks) o.len
  | .data838 =>
    if o.fatlevel ≠ 0 then wholeLoop pages P (P / 4) 0 false (o.blocks.take o.numblocks) o.len
    else wholeDir pages P (o.blocks.take o.numblocks) o.len
  | .free838 => .ub

/-- `V8Object::get_data()` (V8Object.cpp:309-396). `none` is the null pointer of an
empty object. The buffer is kept in the object. -/
def getWhole (pages : List Bytes) (P : Nat) (o : Obj) : Outcome (Option Bytes × Obj) :=
  if o.len = 0 then .ok (none, o)
  else match o.data with
  | some d => .ok (some d, o)
  | none => do
    let d ← wholeBytes pages P o
    .ok (some d, { o with data := some d })

/-- `V8Object::get_fileoffset` (V8Object.cpp:587-642); the offset is cut to 32 bits. -/
def getFileOffset (pages : List Bytes) (P : Nat) (o : Obj) (offset : Nat) : Outcome Nat :=
  let start := offset % 2 ^ 32
  match o.kind with
  | .free80 => do
    let bn ← idx o.blocks (start / 4096)
    .ok (bn * 4096 + start % 4096)
  | .data80 => do
    let k := start / 4096
    let tn ← idx o.blocks (k / 1023)
    let tab ← getPage pages tn
    let bn ← rd32 tab (4 + 4 * (k % 1023))
    .ok (bn * 4096 + start % 4096)
  | .data838 =>
    let k := start / P
    if o.fatlevel ≠ 0 then do
      let tn ← idx o.blocks (k / (P / 4))
      let tab ← getPage pages tn
      let bn ← rd32 tab (4 * (k % (P / 4)))
      .ok (bn * P + start % P)
    else do
      let bn ← idx o.blocks k
      .ok (bn * P + start % P)
  | .free838 => .ok 0

/-- The loop of `V8Object::savetofile` (V8Object.cpp:569-584): the bytes written to the
output file. `iters` is the number of iterations of the loop over `offset`. -/
def saveLoop (pages : List Bytes) (P : Nat) (o : Obj) : Nat → Nat → Nat → Outcome Bytes
  | 0, _, _ => .ok []
  | iters + 1, offset, remain => do
    let b ← getPart pages P o offset (min remain P)
    let r ← saveLoop pages P o iters (offset + P) (remain - P)
    .ok (b ++ r)

/-- Built on V8Object.cpp:569-584. -/
def saveToFile (pages : List Bytes) (P : Nat) (o : Obj) : Outcome Bytes :=
  saveLoop pages P o ((getLen o + P - 1) / P) 0 (getLen o)

end Verif.Object
