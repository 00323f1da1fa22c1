import Verif.Config.Again
import Verif.Config.WholeSpec

/-! # Specification vocabulary: saving a configuration again and again -/

namespace Verif.Config.Again.Spec
open Verif Verif.Config

/-- A file no one has used yet, which can be read: these are its raw contents, and those it is opened with. -/
def Fresh (w : World) (it : Item) (raw plain : Bytes) : Prop :=
  it.handle = Handle.init ∧ Opening.Spec.Raw w.io it.parts raw ∧ Opening.Spec.Plain w.lower w.io it.name raw plain

/-- How often it is saved. -/
def saves : List Act → Nat
  | [] => 0
  | .save _ _ :: acts => saves acts + 1
  | .use _ _ :: acts => saves acts

end Verif.Config.Again.Spec
