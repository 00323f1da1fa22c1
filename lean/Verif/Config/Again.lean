import Verif.Config.Whole
import Verif.Config.HandleSpec

/-!
# Saving a configuration again and again (src/tool1cd/ConfigStorage.cpp:516-554)

The configuration is kept by the database (`cs_config` and the like, Class_1CD.cpp:492-517), and with it the files and their
streams: what was opened before one export is there at the next.
-/

namespace Verif.Config.Again
open Verif Verif.Config

/-- What is done with a configuration: it is saved, at some time and into a file with some contents or none
(ConfigStorage.cpp:516-554), or one of its files is used: opened, opened raw or closed (ConfigStorage.cpp:236-348). -/
inductive Act where
  | save (now : Nat) (old : Option Bytes)
  | use (i : Nat) (op : Opening.Spec.Op)

/-- Using a file of the configuration (ConfigStorage.cpp:236-348). There is nothing to use behind the last. -/
def useFile (w : World) (its : List Item) (i : Nat) (op : Opening.Spec.Op) : Outcome (List Item) :=
  match its[i]? with
  | none => .ok its
  | some it => do
    let h ← Opening.Spec.step w.lower w.io it.name it.parts it.handle op
    .ok (its.set i { it with handle := h })

/-- Several actions, one after the other: what each saving gave, its result and the file after it. The table is ready. An exception
ends all. Built on ConfigStorage.cpp:516-554. -/
def session (w : World) (fuel : Nat) : List Act → List Item → Outcome (Option (List (Bool × Option Bytes)))
  | [], _ => .ok (some [])
  | .save now old :: acts, its => do
    match ← saveConfig { w with now := now } fuel true old its with
    | none => .ok none
    | some (b, f, its) => do
      match ← session w fuel acts its with
      | none => .ok none
      | some rs => .ok (some ((b, f) :: rs))
  | .use i op :: acts, its => do
    let its ← useFile w its i op
    session w fuel acts its

end Verif.Config.Again
