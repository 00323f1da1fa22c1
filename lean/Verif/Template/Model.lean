import Verif.Object.Write
import Verif.Record.Model
import Verif.Unicode.Model

/-!
# Checking and repairing the pages of a table's records
(Constants.h:39-151, Table.cpp:2188-2296, Class_1CD.cpp:1964-2180)

A template says for each byte of a record which values it may have. The pages of the
records are tested against it, pages that do not fit are looked for in the whole file.
Messages are left out.
-/

namespace Verif.Template
open Verif Object

/-! ## The template -/

/-- The `char` array with the template: its size and which entries are not 0. Serves the model of Table.cpp:2227-2233. -/
structure Tmpl where
  size : Nat
  at' : Nat → Bool

/-- `memset(p, 1, n)` and `memcpy(p, table, n)`: entries `pos … pos + n - 1` become
`f 0 … f (n - 1)`; outside the array undefined. Serves the model of Table.cpp:2227-2233. -/
def paint (t : Tmpl) (pos n : Nat) (f : Nat → Bool) : Outcome Tmpl :=
  if pos + n ≤ t.size then .ok ⟨t.size, fun i => if pos ≤ i ∧ i < pos + n then f (i - pos) else t.at' i⟩
  else .ub

/-- The tables of Constants.h:39-151. Each consists of 16 rows of 16 entries; row `r`
begins with `ps[r]` ones, the rest are zeros, rows not listed are zeros. -/
def table (ps : List Nat) (b : Nat) : Bool := decide (b % 16 < ps.getD (b / 16) 0)

/-- Constants.h:39-56. -/
def numTable : Nat → Bool := table [10, 10, 10, 10, 10, 10, 10, 10, 10, 10]
/-- Constants.h:58-75. -/
def date1Table : Nat → Bool := table [10, 10, 10, 10]
/-- Constants.h:77-94. -/
def date3Table : Nat → Bool := table [10, 3]
/-- Constants.h:96-113. -/
def date4Table : Nat → Bool := table [10, 10, 10, 2]
/-- Constants.h:115-132. -/
def date5Table : Nat → Bool := table [10, 10, 4]
/-- Constants.h:134-151. -/
def date67Table : Nat → Bool := table [10, 10, 10, 10, 10, 10]

/-- Serves the model of Table.cpp:2237-2246, 2284-2291. -/
def ones : Nat → Bool := fun _ => true

/-- `if(required) curp[0] = 0` after copying a table (Table.cpp:2268, 2271). -/
def without0 (required : Bool) (f : Nat → Bool) : Nat → Bool := fun b => f b && !(required && b == 0)

/-- The loop over the bytes of a number (Table.cpp:2227-2233). -/
def numRows (t : Tmpl) (p : Nat) : Nat → Outcome Tmpl
  | 0 => .ok t
  | n + 1 => do
    let t ← paint t p 256 numTable
    numRows t (p + 256) n

/-- Two bytes of length and `n` bytes behind (Table.cpp:2237-2246, 2284-2291). -/
def counted (t : Tmpl) (p l n : Nat) : Outcome Tmpl := do
  let t ← paint t p (if l > 255 then 256 else l + 1) ones
  let t ← paint t (p + 256) (l / 256 + 1) ones
  paint t (p + 512) (256 * n) ones

/-- The bytes of a date (Table.cpp:2260-2279). -/
def dateRows (t : Tmpl) (p : Nat) (required : Bool) : Outcome Tmpl := do
  let t ← paint t p 256 date1Table
  let t ← paint t (p + 256) 256 numTable
  let t ← paint t (p + 512) 256 (without0 required date3Table)
  let t ← paint t (p + 768) 256 (without0 required date4Table)
  let t ← paint t (p + 1024) 256 date5Table
  let t ← paint t (p + 1280) 256 date67Table
  paint t (p + 1536) 256 date67Table

/-- `"_DATE_TIME"` and `"_NUMBERPREFIX"` (Table.cpp:2260-2261). -/
def nameDateTime : Bytes := [95, 68, 65, 84, 69, 95, 84, 73, 77, 69]
/-- Serves the model of Table.cpp:2216-2293. -/
def nameNumberPrefix : Bytes := [95, 78, 85, 77, 66, 69, 82, 80, 82, 69, 70, 73, 88]

/-- `EqualIC(f->get_name(), …)` for both names. Serves the model of Table.cpp:2216-2293. -/
def isRequired (name : Bytes) : Outcome Bool := do
  let a ← Unicode.equalIC name nameDateTime
  if a then .ok true else Unicode.equalIC name nameNumberPrefix

/-- The `switch` (Table.cpp:2216-2293); a negative length would be passed to `memset` as a
huge number. -/
def typeRows (t : Tmpl) (p : Nat) (f : Record.Field) : Outcome Tmpl :=
  if f.decl.length < 0 then .ub else
    let l := f.decl.length.toNat
    match f.decl.type with
    | .binary => paint t p (256 * l) ones
    | .bool => paint t p 2 ones
    | .numeric => numRows t p ((l + 2) / 2)
    | .char => paint t p (256 * 2 * l) ones
    | .varchar => counted t p l (2 * l)
    | .version => paint t p (256 * 16) ones
    | .string | .text | .image => paint t p (256 * 8) ones
    | .datetime => do
      let r ← isRequired f.name
      dateRows t p r
    | .version8 => paint t p (256 * 8) ones
    | .varbinary => counted t p l l

/-- One field (Table.cpp:2203-2293). -/
def fieldRows (t : Tmpl) (f : Record.Field) : Outcome Tmpl :=
  if f.offset < 0 then .ub else
    let p := f.offset.toNat * 256
    if f.decl.nullExists then do
      let t ← paint t p 2 ones
      typeRows t (p + 256) f
    else typeRows t p f

/-- The loop over the first `num_fields` fields (Table.cpp:2203). -/
def allRows : Nat → List Record.Field → Tmpl → Outcome Tmpl
  | 0, _, t => .ok t
  | _ + 1, [], _ => .ub
  | n + 1, f :: fs, t => do
    let t ← fieldRows t f
    allRows n fs t

/-- `Table::get_record_template_test` (Table.cpp:2190-2296); `recordlen << 8` must be an
`int32_t`. -/
def template (num : Nat) (fs : List Record.Field) (recordlen : Nat) : Outcome Tmpl :=
  if 2147483648 ≤ recordlen * 256 then .ub else do
    let t ← allRows num fs ⟨recordlen * 256, fun _ => false⟩
    paint t 0 1 ones

/-! ## Testing one page -/

/-- `b[i]` of the local array: bytes that have not been read from the file are not
initialised. Serves the model of Class_1CD.cpp:2148-2155. -/
def byteAt (b : Bytes) (i : Nat) : Outcome UInt8 :=
  match b[i]? with
  | some x => .ok x
  | none => .ub

/-- The test of the head of the first page (Class_1CD.cpp:2148-2155). -/
def zeros (b : Bytes) : Nat → Nat → Outcome Bool
  | 0, _ => .ok true
  | n + 1, i => do
    let x ← byteAt b i
    if x ≠ 0 then .ok false else zeros b n (i + 1)

/-- The loop against the template (Class_1CD.cpp:2165-2173), `n` bytes from `i` on;
`j` is the place in the record. -/
def along (b : Bytes) (tt : Tmpl) (rlen : Nat) : Nat → Nat → Nat → Outcome Bool
  | 0, _, _ => .ok true
  | n + 1, i, j => do
    let x ← byteAt b i
    if tt.size ≤ j * 256 + x.toNat then .ub
    else if tt.at' (j * 256 + x.toNat) = false then .ok false
    else along b tt rlen n (i + 1) (if j + 1 ≥ rlen then 0 else j + 1)

/-- The head of the first page (Class_1CD.cpp:2146-2155). -/
def headOk (b : Bytes) : Outcome Bool := do
  let x ← byteAt b 0
  if x ≠ 1 then .ok false else zeros b 4 1

/-- Serves the model of Class_1CD.cpp:2138-2180. -/
def headTest (num : Nat) (b : Bytes) : Outcome Bool := if num = 0 then headOk b else .ok true

/-- From which byte on and at which place of the record the test begins
(Class_1CD.cpp:2156-2164). `num << 12` wraps at 2^32. -/
def testFrom (num rlen : Nat) : Nat × Nat :=
  if num = 0 then (rlen, 0) else (0, num * 4096 % 2 ^ 32 % rlen)

/-- `T_1CD::test_block_by_template` (Class_1CD.cpp:2138-2180). `file` are the pages as they
stand in the file; a read behind its end brings no bytes. -/
def testBlock (file : List Bytes) (block : Nat) (tt : Tmpl) (num rlen len : Nat) : Outcome Bool :=
  if rlen = 0 then .ub else do
    let b := (file.getD block []).take len
    let h ← headTest num b
    if h = false then .ok false
    else
      let (i, j) := testFrom num rlen
      let r ← along b tt rlen (len - i) i j
      if r = false then .ok false
      else zeros b (4096 - len) len

/-! ## Repairing -/

/-- The search through the file (Class_1CD.cpp:2075-2078): pages `r … r + n - 1`. -/
def candidates (file : List Bytes) (tt : Tmpl) (num rlen len : Nat) : Nat → Nat → Outcome (List Nat)
  | 0, _ => .ok []
  | n + 1, r => do
    let ok ← testBlock file r tt num rlen len
    let rest ← candidates file tt num rlen len n (r + 1)
    .ok (if ok then r :: rest else rest)

/-- The number of pages entered in a placement page (Class_1CD.cpp:2028-2041). -/
def setCount (s : St) (ca n : Nat) : Outcome St := do
  let m ← peek s ca 0
  if n ≠ m then poke s ca 0 (le32 n) else .ok s

/-- The placement page for the next 1023 pages (Class_1CD.cpp:2014-2043). A new page is
made if the number is wrong; it is not entered in the root page. -/
def openTab (e : Env) (s : St) (block k l : Nat) : Outcome (St × Nat) :=
  if k ≥ 1018 then .ub else do
  let a ← peek s block (24 + 4 * k)
  let bad := decide (a < 5 ∨ a ≥ s.pages.length)
  let ca := if bad then s.pages.length else a
  let s ← touch e s ca (!bad)
  let s ← setCount s ca (min ((l + 4095) / 4096) 1023)
  .ok (s, ca)

/-- Is the page entered a page of the file that fits (Class_1CD.cpp:2045-2070)? -/
def inPlace (file : List Bytes) (tt : Tmpl) (rlen : Nat) (s : St) (d i cl : Nat) : Outcome Bool :=
  if d < 5 ∨ d ≥ s.pages.length then .ok false else testBlock file d tt i rlen cl

/-- One page of records (Class_1CD.cpp:2045-2118): the number in place, if it is a page of
the file that fits; else the only page of the file that fits. -/
def fixPage (file : List Bytes) (tt : Tmpl) (rlen : Nat) (s : St) (ca i j cl : Nat) : Outcome St := do
  let d ← peek s ca (4 + 4 * j)
  let ok ← inPlace file tt rlen s d i cl
  if ok then .ok s
  else do
    let bk ← candidates file tt i rlen cl (s.pages.length - 5) 5
    match bk with
    | [] => .throw
    | [r] => poke s ca (4 + 4 * j) (le32 r)
    | _ => .ok s

/-- `if(!j)` (Class_1CD.cpp:2014-2043). -/
def nextTab (e : Env) (s : St) (block j k ca l : Nat) : Outcome (St × Nat × Nat) :=
  if j = 0 then do
    let (s, ca) ← openTab e s block k l
    .ok (s, ca, k + 1)
  else .ok (s, ca, k)

/-- The loop over the pages (Class_1CD.cpp:2010-2128); ends when no bytes are left, which
is after at most `fuel` rounds if `fuel` is the length. `ca` is the current placement page. -/
def fixLoop (e : Env) (file : List Bytes) (tt : Tmpl) (rlen block : Nat) :
    Nat → St → (i j k ca l : Nat) → Outcome St
  | 0, s, _, _, _, _, _ => .ok s
  | fuel + 1, s, i, j, k, ca, l =>
    if l = 0 then .ok s
    else do
      let (s, ca, k) ← nextTab e s block j k ca l
      let s ← fixPage file tt rlen s ca i j (min 4096 l)
      fixLoop e file tt rlen block fuel s (i + 1) (if j + 1 ≥ 1023 then 0 else j + 1) k ca (l - 4096)

/-- `T_1CD::restore_DATA_allocation_table` (Class_1CD.cpp:1965-2134); `block` is the root
page of the records, `file` the pages as they stand in the file. The result is the state
before `flush`. -/
def restore (e : Env) (file : List Bytes) (s : St) (block num : Nat) (fs : List Record.Field) (rlen : Nat) : Outcome St :=
  if block < 5 ∨ block ≥ s.pages.length then .throw else do
  let s ← touch e s block true
  match s.pages[block]? with
  | none => .ub
  | some p =>
    if p.take 8 ≠ sigObj then .throw
    else do
      let l ← peek s block 8
      if rlen = 0 then .ub
      else if l / rlen * rlen ≠ l then .throw
      else do
        let tt ← template num fs rlen
        fixLoop e file tt rlen block l s 0 0 0 0 l

end Verif.Template
