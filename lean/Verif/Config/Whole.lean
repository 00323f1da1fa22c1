import Verif.Config.Handle
import Verif.Container.Close
import Verif.Time.Model
import Verif.Unicode.Spec

/-!
# Saving a whole configuration as a container (src/tool1cd/ConfigStorage.cpp:516-554)

The files of the configuration are given in the order in which the map of names is walked. Raw opening and closing
of a file is the model of property C80, the container that of property C66. Names are the texts of the table; in the
container they are UTF-8.
-/

namespace Verif.Config
open Verif Verif.Container

/-- `ContainerFile`, with what `file` points to: the parts and the times of the file in the table. Serves the model of ConfigStorage.cpp:540-549. -/
structure Item where
  name : Str
  parts : List (Nat × Nat)
  created : Time.FileTime
  modified : Time.FileTime
  handle : Handle
  deriving DecidableEq

/-- A text as the bytes of a `std::string`. Serves the model of ConfigStorage.cpp:540-549. -/
def textBytes (s : Str) : Bytes := Unicode.Spec.utf8Text (s.map Char.toNat)

/-- The environment: `LowerCase`, reading and inflating, the conversion `V8Time::from_file_time` (property C13), and the
current time. Serves the model of ConfigStorage.cpp:540-549. -/
structure World where
  lower : Str → Str
  io : Io
  stamp : Time.FileTime → Int
  now : Nat

/-- The 64-bit pattern of an `int64_t`. Serves the model of ConfigStorage.cpp:540-549. -/
def pattern (x : Int) : Nat := (x % 2 ^ 64).toNat

/-- What `rstream` points to. Serves the model of ConfigStorage.cpp:540-549. -/
def Handle.raw (h : Handle) : Outcome Bytes :=
  match h.rstream with
  | none => .ub
  | some p => h.data p

/-- The body of the loop (ConfigStorage.cpp:540-549) once the file is opened. -/
def saveOpened (w : World) (fuel : Nat) (k : Catalog) (it : Item) (h : Handle) : Outcome (Option (Catalog × Item)) := do
  let x ← createFile k (textBytes it.name) w.now
  let y := setTimes x.2 x.1 (pattern (w.stamp it.created)) (pattern (w.stamp it.modified))
  let raw ← h.raw
  match ← writeAndClose plainCodec fuel y.2 y.1 raw with
  | none => .ok none
  | some k => do
    let h ← h.close
    .ok (some (k, { it with handle := h }))

/-- The body of the loop (ConfigStorage.cpp:531-550); the status line is left out. `ropen` never returns `false`; if it
throws, so does this. -/
def saveItem (w : World) (fuel : Nat) (k : Catalog) (it : Item) : Outcome (Option (Catalog × Item)) := do
  let x ← it.handle.ropen w.lower w.io it.name it.parts
  if x.2 then saveOpened w fuel k it x.1 else .throw

/-- The loop (ConfigStorage.cpp:530-551). -/
def saveItems (w : World) (fuel : Nat) : Catalog → List Item → Outcome (Option (Catalog × List Item))
  | k, [] => .ok (some (k, []))
  | k, it :: its => do
    match ← saveItem w fuel k it with
    | none => .ok none
    | some (k, it) => do
      match ← saveItems w fuel k its with
      | none => .ok none
      | some (k, its) => .ok (some (k, it :: its))

/-- The loop with the destructor of the container behind it (ConfigStorage.cpp:529-554). A new file is always a
container; otherwise nothing is modelled. -/
def saveInto (w : World) (fuel : Nat) (o : Option Opening) (its : List Item) : Outcome (Option (Bytes × List Item)) :=
  match o with
  | some (.container k) => do
    match ← saveItems w fuel k its with
    | none => .ok none
    | some (k, its) => do
      match ← destroy plainCodec fuel k with
      | none => .ok none
      | some d => .ok (some (d, its))
  | _ => .ok none

/-- `ConfigStorageTable::save_config` (ConfigStorage.cpp:516-554): the result, the file of the given name before (`old`) and
after, and the files of the configuration after. -/
def saveConfig (w : World) (fuel : Nat) (ready : Bool) (old : Option Bytes) (its : List Item) :
    Outcome (Option (Bool × Option Bytes × List Item)) :=
  if ready then do
    let cur := if old.isSome then none else old
    let o ← openNamed fuel cur
    match ← saveInto w fuel o its with
    | none => .ok none
    | some (d, its) => .ok (some (true, some d, its))
  else .ok (some (false, old, its))

end Verif.Config
