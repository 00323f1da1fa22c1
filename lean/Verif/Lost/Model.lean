import Verif.Object.Read
import Verif.App.Model

/-!
# Objects no table refers to (Class_1CD.cpp:578-605, 1875-1895)

`T_1CD::find_lost_objects` reports, `T_1CD::find_and_save_lost_objects` saves every page that looks like the header of an object and
belongs to no object open in the process.
-/

namespace Verif.Lost
open Verif Object

/-- An object open in the process: which database it belongs to, and its header page. Serves the model of V8Object.cpp:77-86, 298-306. -/
structure Live where
  base : Nat
  block : Nat
  deriving DecidableEq

/-- The list of open objects (`V8Object::first` … `next`, V8Object.cpp:77-86, 298-306); `none`: it runs through memory given back. A
constructor that throws has linked its object into the list already, and the destructor does not run. -/
abbrev Registry := Option (List Live)

/-- Serves the model of V8Object.cpp:569-584. -/
abbrev Disk := Bytes → Option Bytes

/-- What the search changes. Serves the model of Class_1CD.cpp:1887-1890. -/
structure State where
  disk : Disk
  registry : Registry

/-- The walk over the open objects (Class_1CD.cpp:591-598, 1881-1886): only the number of the page is compared. -/
def isOpen (r : Registry) (i : Nat) : Outcome Bool :=
  match r with
  | none => .ub
  | some l => .ok (l.any fun o => decide (o.block = i))

/-- Page `i` looks like the header of an object that is not open (Class_1CD.cpp:587-599, 1877-1887). -/
def isLost (pages : List Bytes) (r : Registry) (i : Nat) : Outcome Bool := do
  let p ← getPage pages i
  if p.take 8 = sigObj then do
    let b ← isOpen r i
    .ok (!b)
  else .ok false

/-- The loop of `T_1CD::find_lost_objects` (Class_1CD.cpp:585-604): the numbers it reports. -/
def findLoop (pages : List Bytes) (r : Registry) : List Nat → Outcome (List Nat)
  | [] => .ok []
  | i :: is => do
    let b ← isLost pages r i
    let rest ← findLoop pages r is
    .ok (if b then i :: rest else rest)

/-- The pages the loops go through: all but the first one. Serves the model of Class_1CD.cpp:578-605. -/
def candidates (pages : List Bytes) : List Nat := List.range' 1 (pages.length - 1)

/-- `T_1CD::find_lost_objects` (Class_1CD.cpp:578-605). -/
def find (pages : List Bytes) (r : Registry) : Outcome (List Nat) := findLoop pages r (candidates pages)

/-- `V8Object::savetofile` (V8Object.cpp:569-584) once more, as `Object.saveLoop`, with what is in the file when it fails. -/
def writeLoop (pages : List Bytes) (P : Nat) (o : Obj) : Nat → Nat → Nat → Bytes × Outcome Unit
  | 0, _, _ => ([], .ok ())
  | iters + 1, offset, remain =>
    match getPart pages P o offset (min remain P) with
    | .ok b =>
      let r := writeLoop pages P o iters (offset + P) (remain - P)
      (b ++ r.1, r.2)
    | .throw => ([], .throw)
    | .ub => ([], .ub)

/-- `V8Object::savetofile` (V8Object.cpp:569-584). A file that cannot be created takes nothing and says nothing (TFileStream.cpp:31-51). -/
def writeTo (creatable : Bytes → Bool) (pages : List Bytes) (P : Nat) (o : Obj) (path : Bytes) (d : Disk) : Disk × Outcome Unit :=
  let r := writeLoop pages P o ((getLen o + P - 1) / P) 0 (getLen o)
  (if creatable path then fun q => if q = path then some r.1 else d q else d, r.2)

/-- `lost_objects.string() + "block" + to_string(i)` (Class_1CD.cpp:1889). -/
def fileName (dir : Bytes) (i : Nat) : Bytes := dir ++ Cli.asc "block" ++ App.toString i

/-- One lost object (Class_1CD.cpp:1887-1890). -/
def saveOne (creatable : Bytes → Bool) (pages : List Bytes) (P : Nat) (is838 : Bool) (dir : Bytes) (i : Nat) (s : State) : State × Outcome Unit :=
  match init pages P is838 i with
  | .ok o =>
    let r := writeTo creatable pages P o (fileName dir i) s.disk
    ({ s with disk := r.1 }, r.2)
  | .throw => ({ s with registry := none }, .throw)
  | .ub => (s, .ub)

/-- The loop of `T_1CD::find_and_save_lost_objects` (Class_1CD.cpp:1876-1892). -/
def saveLoop (creatable : Bytes → Bool) (pages : List Bytes) (P : Nat) (is838 : Bool) (dir : Bytes) : List Nat → State → State × Outcome Unit
  | [], s => (s, .ok ())
  | i :: is, s =>
    match isLost pages s.registry i with
    | .ok true =>
      match saveOne creatable pages P is838 dir i s with
      | (s', .ok ()) => saveLoop creatable pages P is838 dir is s'
      | r => r
    | .ok false => saveLoop creatable pages P is838 dir is s
    | .throw => (s, .throw)
    | .ub => (s, .ub)

/-- `T_1CD::find_and_save_lost_objects` (Class_1CD.cpp:1875-1895). -/
def save (creatable : Bytes → Bool) (pages : List Bytes) (P : Nat) (is838 : Bool) (dir : Bytes) (s : State) : State × Outcome Unit :=
  saveLoop creatable pages P is838 dir (candidates pages) s

end Verif.Lost
