import Verif.Basic

/-!
# Objects in memory (src/tool1cd/V8Object.cpp)

All objects of a process are linked to a list, whatever database they belong to, and an object may keep its contents in
a buffer. A pointer to an object is its number in the order of creation, a pointer to a buffer likewise.
Simplifications: freed memory is never used again, so that a stale pointer is seen as one; no two objects are made for the
same page of a database; what the pages of an object hold is part of the object (how they are read and written are C20 to
C27); the tick count is given with each call; numbers of characters are not limited.
-/

namespace Verif.Pool
open Verif

/-- The members (V8Object.h:136-156) that matter here. `lastdataget` is not set by the constructor. -/
structure Cell where
  base : Nat
  block : Nat
  bytes : Bytes
  data : Option Nat
  locked : Bool
  lastget : Option Nat
  next : Option Nat
  prev : Option Nat

/-- Objects and buffers in existence, and the static members `first` and `last` (V8Object.cpp:29-30). -/
structure Heap where
  cell : Nat → Option Cell
  fresh : Nat
  buf : Nat → Option Bytes
  bufs : Nat
  first : Option Nat
  last : Option Nat

/-- Built on V8Object.cpp:29-30. -/
def empty : Heap := ⟨fun _ => none, 0, fun _ => none, 0, none, none⟩

/-- Reading through a pointer. Serves the model of V8Object.cpp:670-671, 777-778, 874-875, 973-974, 1077-1078. -/
def deref (h : Heap) (i : Nat) : Outcome Cell :=
  match h.cell i with
  | some c => .ok c
  | none => .ub

/-- Serves the model of V8Object.cpp:77-271. -/
def put (h : Heap) (i : Nat) (c : Option Cell) : Heap :=
  { h with cell := fun j => if j = i then c else h.cell j }

/-- Assigning members through a pointer. Serves the model of V8Object.cpp:84-85. -/
def modify (h : Heap) (i : Nat) (f : Cell → Cell) : Outcome Heap := do
  let c ← deref h i
  .ok (put h i (some (f c)))

/-- `delete[] data` of a buffer that is there. Serves the model of V8Object.cpp:670-671, 777-778, 874-875, 973-974, 1077-1078. -/
def freeBuf (h : Heap) (p : Nat) : Heap := { h with buf := fun q => if q = p then none else h.buf q }

/-- `if(last) last->next = this; else first = this;` (V8Object.cpp:84-85). -/
def append (h : Heap) (n : Nat) : Outcome Heap :=
  match h.last with
  | some q => modify h q (fun c => { c with next := some n })
  | none => .ok { h with first := some n }

/-- `init(_base, blockNum)` (V8Object.cpp:77-271): the object is linked before its page is read. -/
def link (h : Heap) (base block : Nat) (bytes : Bytes) : Outcome (Heap × Nat) := do
  let n := h.fresh
  let h : Heap := { put h n (some ⟨base, block, bytes, none, false, none, none, h.last⟩) with fresh := n + 1 }
  let h ← append h n
  .ok ({ h with last := some n }, n)

/-- A constructor (V8Object.cpp:274-294) of an object whose page is in order. -/
def create (h : Heap) (base block : Nat) (bytes : Bytes) : Outcome (Heap × Nat) := link h base block bytes

/-- A constructor that throws (V8Object.cpp:104-110, 166-184, 231-237): the object's memory is released, its destructor is not run. -/
def createBad (h : Heap) (base block : Nat) : Outcome Heap := do
  let x ← link h base block []
  .ok (put x.1 x.2 none)

/-- `if(prev) prev->next = next; else first = next;` (V8Object.cpp:302-303). -/
def bypassPrev (h : Heap) (c : Cell) : Outcome Heap :=
  match c.prev with
  | some q => modify h q (fun d => { d with next := c.next })
  | none => .ok { h with first := c.next }

/-- `if(next) next->prev = prev; else last = prev;` (V8Object.cpp:304-305). -/
def bypassNext (h : Heap) (c : Cell) : Outcome Heap :=
  match c.next with
  | some q => modify h q (fun d => { d with prev := c.prev })
  | none => .ok { h with last := c.prev }

/-- `delete[] data; data = nullptr` (V8Object.cpp:670-671, 777-778, 874-875, 973-974, 1077-1078). -/
def drop (h : Heap) (i : Nat) : Outcome Heap := do
  let c ← deref h i
  let h := match c.data with
    | some p => freeBuf h p
    | none => h
  modify h i (fun c => { c with data := none })

/-- `~V8Object` (V8Object.cpp:298-306). -/
def destroy (h : Heap) (i : Nat) : Outcome Heap := do
  let h ← drop h i
  let c ← deref h i
  let h ← bypassPrev h c
  let h ← bypassNext h c
  .ok (put h i none)

/-- `get_data()` (V8Object.cpp:309-395): a null pointer for an empty object. -/
def get (h : Heap) (i t : Nat) : Outcome (Heap × Option Nat) := do
  let h ← modify h i (fun c => { c with lastget := some t })
  let c ← deref h i
  if c.bytes.isEmpty then .ok (h, none)
  else
    match c.data with
    | some p => .ok (h, some p)
    | none => do
      let p := h.bufs
      let h : Heap := { h with buf := fun q => if q = p then some c.bytes else h.buf q, bufs := p + 1 }
      let h ← modify h i (fun c => { c with data := some p })
      .ok (h, some p)

/-- `set_data` and, when the length changes, `set_len` (V8Object.cpp:655-1078): afterwards the object holds these bytes. -/
def write (h : Heap) (i t : Nat) (bytes : Bytes) : Outcome Heap := do
  let h ← drop h i
  modify h i (fun c => { c with bytes := bytes, lastget := some t })

/-- `set_lockinmemory` (V8Object.cpp:52-56). -/
def setLock (h : Heap) (i t : Nat) (b : Bool) : Outcome Heap :=
  modify h i (fun c => { c with locked := b, lastget := some t })

/-- `curt - ob->lastdataget > LIVE_CASH * 60 * 1000` (V8Object.cpp:42), on 32-bit numbers. -/
def old (t last : Nat) : Bool := (t % 2 ^ 32 + 2 ^ 32 - last % 2 ^ 32) % 2 ^ 32 > 300000

/-- The body of the loop of `garbage` (V8Object.cpp:42-46). -/
def sweepOne (h : Heap) (i t : Nat) : Outcome Heap := do
  let c ← deref h i
  if c.locked then .ok h
  else
    match c.data with
    | none => .ok h
    | some _ =>
      match c.lastget with
      | none => .ub
      | some last => if old t last then drop h i else .ok h

/-- The loop of `garbage` (V8Object.cpp:40-48). `none`: still going after that many objects. -/
def sweep (t : Nat) : Nat → Heap → Option Nat → Outcome (Option Heap)
  | _, h, none => .ok (some h)
  | 0, _, some _ => .ok none
  | n + 1, h, some i => do
    let h ← sweepOne h i t
    let c ← deref h i
    sweep t n h c.next

/-- `V8Object::garbage` (V8Object.cpp:35-49). -/
def garbage (h : Heap) (fuel t : Nat) : Outcome (Option Heap) := sweep t fuel h h.first

/-- `for(v8obj = V8Object::get_first(); v8obj; v8obj = v8obj->get_next())` (Class_1CD.cpp:1812, 1882): the objects met. -/
def walk (h : Heap) : Nat → Option Nat → Outcome (Option (List Nat))
  | _, none => .ok (some [])
  | 0, some _ => .ok none
  | n + 1, some i => do
    let c ← deref h i
    match ← walk h n c.next with
    | none => .ok none
    | some r => .ok (some (i :: r))

/-- The search for the object of a page (Class_1CD.cpp:1811-1819, 1881-1887), from the given object. -/
def known (h : Heap) (block : Nat) : Nat → Option Nat → Outcome (Option Bool)
  | _, none => .ok (some false)
  | 0, some _ => .ok none
  | n + 1, some i => do
    let c ← deref h i
    if c.block = block then .ok (some true) else known h block n c.next

/-- What a program does with objects. Built on V8Object.cpp:35-49. -/
inductive Op where
  | create (base block : Nat) (bytes : Bytes)
  | destroy (i : Nat)
  | get (i t : Nat)
  | write (i t : Nat) (bytes : Bytes)
  | lock (i t : Nat) (b : Bool)
  | garbage (t : Nat)
  deriving DecidableEq

/-- One step; as many objects as were ever made are enough for the loops. Built on V8Object.cpp:35-49. -/
def step (h : Heap) : Op → Outcome (Option Heap)
  | .create base block bytes => do
    let x ← create h base block bytes
    .ok (some x.1)
  | .destroy i => do
    let h ← destroy h i
    .ok (some h)
  | .get i t => do
    let x ← get h i t
    .ok (some x.1)
  | .write i t bytes => do
    let h ← write h i t bytes
    .ok (some h)
  | .lock i t b => do
    let h ← setLock h i t b
    .ok (some h)
  | .garbage t => garbage h h.fresh t

/-- A history. Built on V8Object.cpp:29-30. -/
def run : Heap → List Op → Outcome (Option Heap)
  | h, [] => .ok (some h)
  | h, o :: os => do
    match ← step h o with
    | none => .ok none
    | some h => run h os

/-- What a table keeps of this (Table.h:200-230): the count of locks and its four files `descr_table`, `file_data`,
`file_blob`, `file_index`. -/
structure Tab where
  count : Nat
  files : List (Option Nat)

/-- `if(file) file->set_lockinmemory(b)` for the files in turn (Table.cpp:709-712, 719-722). -/
def lockFiles (h : Heap) (t : Nat) (b : Bool) : List (Option Nat) → Outcome Heap
  | [] => .ok h
  | none :: fs => lockFiles h t b fs
  | some i :: fs => do
    let h ← setLock h i t b
    lockFiles h t b fs

/-- `Table::set_lock_inmemory` (Table.cpp:704-725). -/
def tableLock (h : Heap) (x : Tab) (t : Nat) (b : Bool) : Outcome (Heap × Tab) :=
  if b then do
    let h ← lockFiles h t true x.files
    .ok (h, { x with count := x.count + 1 })
  else
    if x.count - 1 = 0 then do
      let h ← lockFiles h t false x.files
      .ok (h, { x with count := x.count - 1 })
    else .ok (h, { x with count := x.count - 1 })

/-- Locking and unlocking a table, one call after the other. Built on Table.cpp:704-725. -/
def tableLocks (h : Heap) (x : Tab) : List (Nat × Bool) → Outcome (Heap × Tab)
  | [] => .ok (h, x)
  | (t, b) :: l => do
    let r ← tableLock h x t b
    tableLocks r.1 r.2 l

end Verif.Pool
