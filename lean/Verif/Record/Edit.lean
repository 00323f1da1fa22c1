import Verif.Record.Model

/-!
# Editing a table: the list of changed records
(Table.cpp:41-85, 1053-1098, 1326-1586, 1589-1628, 1943-1957)

Not modelled: who owns the streams held by blob fields of a changed record (they are
eight opaque bytes here). `end_edit`, which writes the changes into the files, is in
`Record.Save`.
-/

namespace Verif.Record
open Verif

/-- `enum class changed_rec_type` (Table.h:47-53). -/
inductive Kind where
  | notChanged | changed | inserted | deleted
  deriving DecidableEq, Repr

/-- The two buffers of a `changed_rec` (Table.h:72-76): null pointers, allocated buffers
(a mark per field, the record), or pointers to buffers already freed. -/
inductive Bufs where
  | null
  | live (marks : List Bool) (rec : Bytes)
  | freed
  deriving DecidableEq, Repr

/-- `class changed_rec` (Table.h:56-81). -/
structure ChRec where
  num : Nat
  kind : Kind
  bufs : Bufs
  deriving DecidableEq, Repr

/-- A field as `set_edit_value` sees it. Serves the model of Table.cpp:1398-1402. -/
structure EField where
  slot : Slot
  isVersion : Bool
  deriving DecidableEq, Repr

/-- What does not change while a table is edited. Serves the model of Table.cpp:1053-1062. -/
structure EEnv where
  tab : Tab
  phys : Nat
  fields : List EField
  readonly : Bool
  deriving DecidableEq, Repr

/-- The editing state: the list of changed records, newest first, and
`added_numrecords`. Serves the model of Table.cpp:1053-1062. -/
structure ESt where
  edit : Bool
  chs : List ChRec
  added : Nat
  deriving DecidableEq, Repr

/-- `begin_edit` (Table.cpp:1053-1062). -/
def beginEdit (e : EEnv) (s : ESt) : Outcome ESt :=
  if s.edit then .ok s
  else if e.readonly then .throw
  else .ok { s with edit := true }

/-- `for(cr = ch_rec; cr; cr = cr->next) if(cr->numrec == phys_numrecord) break;`. Serves the model of Table.cpp:1065-1078. -/
def findCh (s : ESt) (n : Nat) : Option ChRec := s.chs.find? (fun c => c.num == n)

/-- Replaces the first entry for record `n`. Serves the model of Table.cpp:1326-1423. -/
def updCh (n : Nat) (c' : ChRec) : List ChRec → List ChRec
  | [] => []
  | c :: cs => if c.num = n then c' :: cs else c :: updCh n c' cs

/-- Unlinks the first entry for record `n`. Serves the model of Table.cpp:1426-1473. -/
def dropCh (n : Nat) : List ChRec → List ChRec
  | [] => []
  | c :: cs => if c.num = n then cs else c :: dropCh n cs

/-- `new changed_rec(…)` (Table.cpp:41-60). -/
def newCh (e : EEnv) (k : Kind) (n : Nat) : ChRec :=
  ⟨n, k, if k = .deleted then .null else .live (List.replicate e.fields.length false) (List.replicate e.tab.reclen 0)⟩

/-- `~changed_rec` (Table.cpp:62-85): walks the marks, then frees the buffers. -/
def destroy (c : ChRec) : Outcome Unit :=
  match c.bufs with
  | .freed => .ub
  | _ => .ok ()

/-- `get_rec_type` of a record (Table.cpp:1065-1078). -/
def recType (s : ESt) (n : Nat) : Kind :=
  if s.edit then
    match findCh s n with
    | some c => c.kind
    | none => .notChanged
  else .notChanged

/-- `get_rec_type` of a field (Table.cpp:1081-1098). -/
def fieldType (s : ESt) (n fi : Nat) : Outcome Kind :=
  if s.edit then
    match findCh s n with
    | some c =>
      if c.kind = .changed then
        match c.bufs with
        | .live marks _ =>
          match marks[fi]? with
          | some m => .ok (if m then .changed else .notChanged)
          | none => .ub
        | _ => .ub
      else .ok c.kind
    | none => .ok .notChanged
  else .ok .notChanged

/-- Stores an encoded value into an entry's buffers (Table.cpp:1398-1402). -/
def putInto (f : EField) (fi : Nat) (enc : Bytes) (c : ChRec) : Outcome ChRec :=
  match c.bufs with
  | .live marks rec =>
    if fi < marks.length then do
      let r ← store rec f.slot.offset enc
      .ok { c with bufs := .live (marks.set fi true) r }
    else .ub
  | _ => .ub

/-- `set_edit_value` (Table.cpp:1326-1423). `enc` is the value converted to the bytes of
the field (`get_size()` of them), null flag included.

For an existing record `rec` is a `TableRecord*`: with a new entry its object, not
its bytes, is copied into the entry (1387), and in every case the object is released
with `delete[]` although it was created with `new` (1421): undefined. For record
number `phys_numrecords` a new entry is filled from a null pointer (1387). -/
def setEdit (e : EEnv) (s : ESt) (n fi : Nat) (nul : Bool) (enc : Bytes) : Outcome ESt :=
  if !s.edit then .ok s
  else
    match e.fields[fi]? with
    | none => .ub
    | some f =>
      if f.isVersion then .ok s
      else if nul && !f.slot.nullable then .ok s
      else if n < e.phys then do
        let r ← getRecord e.tab n
        let old ← load r f.slot.offset f.slot.size
        if old = enc ∧ findCh s n = none then .ok s
        else .ub
      else
        match findCh s n with
        | some c => do
          let c' ← putInto f fi enc c
          .ok { s with chs := updCh n c' s.chs }
        | none =>
          if n = e.phys then .ub
          else do
            let c' ← putInto f fi enc (newCh e .inserted n)
            .ok { s with chs := c' :: s.chs }

/-- `restore_edit_value` (Table.cpp:1426-1473). -/
def restoreEdit (e : EEnv) (s : ESt) (n fi : Nat) : Outcome ESt :=
  if n ≥ e.phys then .ok s
  else
    match findCh s n with
    | none => .ok s
    | some c =>
      if c.kind ≠ .changed then .ok s
      else
        match e.fields[fi]?, c.bufs with
        | some f, .live marks rec =>
          if (marks.set fi false).any id then do
            let r ← getRecord e.tab n
            let old ← load r f.slot.offset f.slot.size
            let rec ← store rec f.slot.offset old
            .ok { s with chs := updCh n { c with bufs := .live (marks.set fi false) rec } s.chs }
          else .ok { s with chs := dropCh n s.chs }
        | _, _ => .ub

/-- `--added_numrecords` (Table.cpp:1546) of a `uint32_t`. -/
def dec32 (a : Nat) : Nat := (a + (2 ^ 32 - 1)) % 2 ^ 32

/-- `set_rec_type` (Table.cpp:1476-1569). The number of added records is a `uint32_t`. -/
def setType (e : EEnv) (s : ESt) (n : Nat) (k : Kind) : Outcome ESt :=
  if n < e.phys then
    match k with
    | .changed => .throw
    | .inserted => .throw
    | .deleted =>
      match findCh s n with
      | some c =>
        match c.bufs with
        | .null => .ok { s with chs := updCh n { c with kind := .deleted } s.chs }
        | .live _ _ => .ok { s with chs := updCh n { c with kind := .deleted, bufs := .freed } s.chs }
        | .freed => .ub
      | none => .ok { s with chs := newCh e .deleted n :: s.chs }
    | .notChanged =>
      match findCh s n with
      | some c => do
        destroy c
        .ok { s with chs := dropCh n s.chs }
      | none => .ok s
  else
    match k with
    | .changed => .throw
    | .inserted =>
      match findCh s n with
      | some c => .ok { s with chs := updCh n { c with kind := .inserted } s.chs }
      | none =>
        if n > (e.phys + s.added) % 2 ^ 32 then .throw
        else .ok { s with chs := newCh e .inserted n :: s.chs, added := (s.added + 1) % 2 ^ 32 }
    | .deleted => do
      let s ← match findCh s n with
        | some c => do
          destroy c
          .ok { s with chs := dropCh n s.chs, added := dec32 s.added }
        | none => .ok s
      .ok { s with chs := s.chs.map (fun c => if c.num > n then { c with num := c.num - 1 } else c) }
    | .notChanged => .throw

/-- `get_edit_record` (Table.cpp:1572-1586). -/
def editRecord (e : EEnv) (s : ESt) (n : Nat) : Outcome Bytes :=
  match findCh s n with
  | some c =>
    if c.kind ≠ .deleted then
      match c.bufs with
      | .live _ rec => .ok rec
      | _ => .ub
    else getRecord e.tab n
  | none => getRecord e.tab n

/-- Serves the model of Table.cpp:1943-1957. -/
def destroyAll : List ChRec → Outcome Unit
  | [] => .ok ()
  | c :: cs => do
    destroy c
    destroyAll cs

/-- `cancel_edit` (Table.cpp:1943-1957). -/
def cancelEdit (s : ESt) : Outcome ESt := do
  destroyAll s.chs
  .ok ⟨false, [], 0⟩

/-- `get_phys_numrec` (Table.cpp:1589-1628). `row` is an `int`, converted to `uint32_t`;
`ix` are the record numbers of the index or of `recordsindex`, `log` their number. -/
def physOfRow (e : EEnv) (s : ESt) (ix : List Nat) (log : Nat) (row : Nat) : Outcome Nat :=
  if row = 0 then .throw
  else if s.edit && decide (row > (log + s.added) % 2 ^ 32) then .throw
  else if s.edit && decide (row > log) then .ok ((row - 1 - log + e.phys) % 2 ^ 32)
  else if row > log then .throw
  else
    match ix[row - 1]? with
    | some n => .ok n
    | none => .ub

/-- The operations. Built on Table.h:47-53. -/
inductive EOp where
  | begin
  | put (n fi : Nat) (nul : Bool) (enc : Bytes)
  | restore (n fi : Nat)
  | mark (n : Nat) (k : Kind)
  | cancel
  deriving DecidableEq, Repr

/-- Built on Table.cpp:1943-1957. -/
def estep (e : EEnv) (s : ESt) : EOp → Outcome ESt
  | .begin => beginEdit e s
  | .put n fi nul enc => setEdit e s n fi nul enc
  | .restore n fi => restoreEdit e s n fi
  | .mark n k => setType e s n k
  | .cancel => cancelEdit s

/-- A history: an exception leaves the state as it was when thrown (all of them are thrown
before anything is changed). Built on Table.cpp:1053-1062. -/
def erun (e : EEnv) : List EOp → ESt → Outcome ESt
  | [], s => .ok s
  | op :: ops, s =>
    match estep e s op with
    | .ok s' => erun e ops s'
    | .throw => erun e ops s
    | .ub => .ub

end Verif.Record
