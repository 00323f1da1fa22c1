import Verif.Record.Model
import Verif.Field.Model

/-!
# Opening a table: `Table::init` (Table.cpp:140-505, Index.cpp:1197-1264, 318-333)

The internal files a description names are given by a function from page numbers to
contents: `V8Object(base, block)` throws or yields a file, whose `get_len` is the length of
its contents and whose `get_data` returns a slice of them, throwing outside (C20–C22;
`Pages.lean` proves this of the pages of a database).
-/

namespace Verif.TableOpen
open Verif Record Tree

/-- What a table is opened from: page size, format, and the internal files. Serves the model of Table.cpp:323-331. -/
structure Base where
  pageSize : Nat
  is838 : Bool
  file : Int → Outcome Bytes

/-- A field together with the guess whether its values are identifiers
(`can_be_guid`, Field.cpp:458-463). -/
structure FieldInfo where
  field : Field
  isGuid : Bool
  deriving DecidableEq, Repr

/-- `class Index` (Index.h): a field is given by its number in the table. -/
structure Ix where
  name : Bytes
  primary : Bool
  fields : List (Nat × Int)
  start : Nat
  rootblock : Nat
  length : Nat
  deriving DecidableEq, Repr

/-- `class Table` (Table.h:200-230) after `init`, the members set there. -/
structure Table where
  name : Bytes
  issystem : Bool
  fields : List FieldInfo
  numFields : Nat
  indexes : List Ix
  recordlock : Bool
  data : Bytes
  blob : Option Bytes
  index : Option Bytes
  recordlen : Int
  phys : Nat
  deriving DecidableEq, Repr

/-! ## The name -/

/-- The names that do not begin with an underscore, and some others (Table.cpp:179-186).
`name[0]` of an empty `std::string` is NUL. -/
def isSystem (name : Bytes) : Outcome Bool :=
  if name.head? ≠ some 95 then .ok true
  else do
    if ← Unicode.endsWithIC name (utf8Of "STORAGE".toList) then .ok true
    else if ← Unicode.equalIC name (utf8Of "_SYSTEMSETTINGS".toList) then .ok true
    else if ← Unicode.equalIC name (utf8Of "_COMMONSETTINGS".toList) then .ok true
    else if ← Unicode.equalIC name (utf8Of "_REPSETTINGS".toList) then .ok true
    else if ← Unicode.equalIC name (utf8Of "_REPVARSETTINGS".toList) then .ok true
    else if ← Unicode.equalIC name (utf8Of "_FRMDTSETTINGS".toList) then .ok true
    else Unicode.equalIC name (utf8Of "_SCHEDULEDJOBS".toList)

/-! ## Fields -/

/-- `Field::field_from_tree` (Field.cpp:438-470) with the guess about identifiers; the
guess only matters for binary fields of 16 bytes (FieldType.cpp:895-914). -/
def field (ns : List Node) (hasVersion : Bool) : Outcome (FieldInfo × Bool) := do
  let (f, hv) ← fieldFromTree ns hasVersion
  let g ← Field.canBeGuid f.name
  .ok (⟨f, decide (f.decl.type = .binary) && g && decide (f.decl.length = 16)⟩, hv)

/-- The loop over the field descriptions (Table.cpp:207-230). -/
def fields : List Node → Bool → Outcome (List FieldInfo × Bool)
  | [], hv => .ok ([], hv)
  | n :: ns, hv =>
    if n.kids.length ≠ 6 then .throw
    else do
      let (f, hv) ← field n.kids hv
      let (fs, hv) ← fields ns hv
      .ok (f :: fs, hv)

/-- A node that must be the given word (Table.cpp:200-206, 244-250, 270-276, 297-303). -/
def word (s : Str) (n : Node) : Outcome Unit :=
  if n.type ≠ .string then .throw else if n.value ≠ s then .throw else .ok ()

/-- The part about fields (Table.cpp:190-230). -/
def fieldPart (n : Node) : Outcome (List FieldInfo × Bool) :=
  if n.type ≠ .list then .throw
  else if n.kids.length < 2 then .throw
  else match n.kids with
    | [] => .ub
    | f :: fs => do
      word "Fields".toList f
      fields fs false

/-! ## Indexes -/

/-- The loop over the fields of an index (Index.cpp:1229-1261); `names` are the names of the
fields of the table. -/
def indexFields (names : List Bytes) : List Node → Outcome (List (Nat × Int))
  | [] => .ok []
  | n :: ns =>
    match n.kids with
    | [a, b] =>
      if a.type ≠ .string then .throw
      else do
        match ← findName (utf8Of a.value) names.length names 0 with
        | none => .throw
        | some j =>
          if b.type ≠ .number then .throw
          else do
            let z ← stoi b.value
            let r ← indexFields names ns
            .ok ((j, z) :: r)
    | _ => .throw

/-- `Index::index_from_tree` (Index.cpp:1197-1264). -/
def indexFromTree (names : List Bytes) (n : Node) : Outcome Ix :=
  match n.kids with
  | a :: b :: r :: rs =>
    if n.type ≠ .list then .throw
    else if a.type ≠ .string then .throw
    else if b.type ≠ .number then .throw
    else do
      let primary ← oneOf ['1'] ['0'] b.value
      let fs ← indexFields names (r :: rs)
      .ok ⟨utf8Of a.value, primary, fs, 0, 0, 0⟩
  | _ => .throw

/-- The loop over the index descriptions (Table.cpp:252-265). -/
def indexes (names : List Bytes) : List Node → Outcome (List Ix)
  | [] => .ok []
  | n :: ns => do
    let i ← indexFromTree names n
    let is ← indexes names ns
    .ok (i :: is)

/-- The part about indexes (Table.cpp:232-266). -/
def indexPart (names : List Bytes) (n : Node) : Outcome (List Ix) :=
  if n.type ≠ .list then .throw
  else match n.kids with
    | [] => .throw
    | _ :: [] => .ok []
    | f :: i :: is => do
      word "Indexes".toList f
      indexes names (i :: is)

/-! ## Locks and files -/

/-- Table.cpp:268-289. -/
def lockPart (n : Node) : Outcome Bool :=
  match n.kids with
  | [f, v] => do
    word "Recordlock".toList f
    if v.type ≠ .string then .throw else oneOf ['1'] ['0'] v.value
  | _ => .throw

/-- A page number (Table.cpp:314-321). -/
def blockNumber (n : Node) : Outcome Int :=
  if n.type ≠ .number then .throw else stoi n.value

/-- Table.cpp:299-321. -/
def filePart (n : Node) : Outcome (Int × Int × Int) :=
  match n.kids with
  | [f, x, y, z] => do
    word "Files".toList f
    let a ← blockNumber x
    let b ← blockNumber y
    let c ← blockNumber z
    .ok (a, b, c)
  | _ => .throw

/-- Page number 0 means that there is no such file (Table.cpp:323-331). -/
def openFile (base : Base) (b : Int) : Outcome (Option Bytes) :=
  if b = 0 then .ok none
  else do
    let f ← base.file b
    .ok (some f)

/-! ## The index file -/

/-- One entry of the table at its front (Table.cpp:366-396). -/
def startOf (base : Base) (len w : Nat) : Outcome Nat :=
  if base.is838 = false then
    if len ≤ w then .throw else if w % 4096 ≠ 0 then .throw else .ok w
  else if len ≤ w * base.pageSize then .throw else .ok (w * base.pageSize)

/-- The loop (Table.cpp:364-397). -/
def starts (base : Base) (len : Nat) (buf : Bytes) : Nat → List Ix → Outcome (List Ix)
  | _, [] => .ok []
  | i, x :: xs => do
    let w ← Object.rd32 buf (4 * i)
    let s ← startOf base len w
    let r ← starts base len buf (i + 1) xs
    .ok ({ x with start := s } :: r)

/-- Where the indexes begin (Table.cpp:346-403). The two products are of 32 bits. -/
def startPart (base : Base) (file : Bytes) (xs : List Ix) : Outcome (List Ix) :=
  if base.pageSize = 0 then .ub
  else
    let m := file.length / base.pageSize % 2 ^ 32
    if file.length ≠ m * base.pageSize % 2 ^ 32 then .throw
    else do
      let buf ← Blob.getData file 0 (xs.length * 4 + 4)
      let w ← Object.rd32 buf 0
      if file.length ≤ w * base.pageSize % 2 ^ 32 then .throw
      else starts base file.length buf 1 xs

/-- `Index::get_length` (Index.cpp:318-333) on an index not looked at before. The length is
a signed word of 16 bits, kept in an unsigned one of 32. -/
def lengthOf (base : Base) (file : Bytes) (x : Ix) : Outcome Ix :=
  if x.start = 0 then .ok x
  else do
    let buf ← Blob.getData file x.start 8
    let r ← Object.rd32 buf 0
    let l ← Blob.rd16 buf 4
    .ok { x with rootblock := if base.is838 then r * base.pageSize % 2 ^ 32 else r,
                 length := if l < 32768 then l else l + (2 ^ 32 - 65536) }

/-- Table.cpp:460. -/
def lengths (base : Base) (file : Bytes) : List Ix → Outcome (List Ix)
  | [] => .ok []
  | x :: xs => do
    let x ← lengthOf base file x
    let xs ← lengths base file xs
    .ok (x :: xs)

/-- There is an index file exactly if there are indexes (Table.cpp:333-345), and where they
begin in it. -/
def indexFilePart (base : Base) (file : Option Bytes) (xs : List Ix) : Outcome (List Ix) :=
  match file, xs with
  | none, [] => .ok []
  | none, _ :: _ => .throw
  | some _, [] => .throw
  | some f, _ :: _ => startPart base f xs

/-- Table.cpp:460, once more for the case without an index file. -/
def lengthPart (base : Base) (file : Option Bytes) (xs : List Ix) : Outcome (List Ix) :=
  match file with
  | none => .ok xs
  | some f => lengths base f xs

/-! ## Records -/

/-- The number of records (Table.cpp:436-457); `phys_numrecords` has 32 bits, and so has
the product. Without a data file the table is refused. -/
def physPart (data : Option Bytes) (recordlen : Int) : Outcome (Bytes × Nat) :=
  match data with
  | none => .throw
  | some f =>
    let phys := f.length / recordlen.toNat % 2 ^ 32
    if phys * recordlen.toNat % 2 ^ 32 ≠ f.length then .throw else .ok (f, phys)

/-- Offsets of the fields (Table.cpp:413-434); the hidden field is not among the first
`num` and keeps offset 0. -/
def layoutPart (num : Nat) (fs : List FieldInfo) : Outcome (List FieldInfo × Int) := do
  let (gs, len) ← layout num (fs.map FieldInfo.field)
  .ok (List.zipWith (fun f g => { f with field := g }) fs gs, len)

/-- `Version8` has no guess about identifiers. Serves the model of Table.cpp:162-465. -/
def hidden : FieldInfo := ⟨hiddenField, false⟩

/-- `Table::init(block_descr)` from the parsed description (Table.cpp:162-465). -/
def initTree (base : Base) (root : Node) : Outcome Table :=
  match root.kids with
  | [rt] =>
    match rt.kids with
    | [t0, _, t2, t3, t4, t5] =>
      if t0.type ≠ .string then .throw
      else do
        let sys ← isSystem (utf8Of t0.value)
        let (fs, hv) ← fieldPart t2
        let is ← indexPart (fs.map (fun f => f.field.name)) t3
        let lock ← lockPart t4
        let (b0, b1, b2) ← filePart t5
        let data ← openFile base b0
        let blob ← openFile base b1
        let index ← openFile base b2
        let is ← indexFilePart base index is
        let (gs, len) ← layoutPart fs.length (if lock && !hv then fs ++ [hidden] else fs)
        let (file, phys) ← physPart data len
        let is ← lengthPart base index is
        .ok ⟨utf8Of t0.value, sys, gs, fs.length, is, lock, file, blob, index, len, phys⟩
    | _ => .throw
  | _ => .throw

/-- `Table::init(block_descr)` (Table.cpp:140-466); an empty description leaves an empty
table marked `bad`. -/
def init (base : Base) (description : Str) : Outcome (Option Table) :=
  if description.isEmpty then .ok none
  else do
    let root ← parseText description
    let t ← initTree base root
    .ok (some t)

end Verif.TableOpen
