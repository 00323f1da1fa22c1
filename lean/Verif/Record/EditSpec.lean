import Verif.Record.Edit
import Verif.Record.Spec

/-! # Specification vocabulary: editing a table -/

namespace Verif.Record.Spec
open Verif Record

/-- The state of an editing session as its user sees it: which stored records are marked
for deletion, and the records that were added. -/
structure View where
  editing : Bool
  del : Nat → Bool
  new : Nat → Option Bytes
  added : Nat

/-- Nothing is being edited. -/
def View.idle : View := ⟨false, fun _ => false, fun _ => none, 0⟩

/-- `b` with the bytes `x` at `off`. -/
def overlay (b : Bytes) (off : Nat) (x : Bytes) : Bytes := b.take off ++ x ++ b.drop (off + x.length)

/-- What each operation does. Refused operations change nothing. -/
def eff (e : EEnv) (v : View) : EOp → View
  | .begin => if e.readonly then v else { v with editing := true }
  | .put n fi nul enc =>
    match e.fields[fi]? with
    | none => v
    | some f =>
      if v.editing = false ∨ f.isVersion = true ∨ (nul = true ∧ f.slot.nullable = false) ∨ n < e.phys then v
      else { v with new := fun m =>
        if m = n then some (overlay ((v.new n).getD (List.replicate e.tab.reclen 0)) f.slot.offset enc) else v.new m }
  | .restore _ _ => v
  | .mark n .deleted =>
    if n < e.phys then { v with del := fun m => if m = n then true else v.del m }
    else { v with
      new := fun m => if m < n then v.new m else v.new (m + 1)
      added := if (v.new n).isSome then (if v.added = 0 then 4294967295 else v.added - 1) else v.added }
  | .mark n .notChanged =>
    if n < e.phys then { v with del := fun m => if m = n then false else v.del m } else v
  | .mark n .inserted =>
    if n < e.phys ∨ (v.new n).isSome ∨ n > (e.phys + v.added) % 2 ^ 32 then v
    else { v with
      new := fun m => if m = n then some (List.replicate e.tab.reclen 0) else v.new m
      added := (v.added + 1) % 2 ^ 32 }
  | .mark _ .changed => v
  | .cancel => View.idle

/-- The operations whose effect is undefined: changing a stored record, storing a value in
record number `phys` before it was added, and a field number outside the table. -/
def Broken (e : EEnv) (v : View) : EOp → Prop
  | .put n fi nul enc => v.editing = true ∧
    match e.fields[fi]? with
    | none => True
    | some f => f.isVersion = false ∧ ¬ (nul = true ∧ f.slot.nullable = false) ∧
      ((n < e.phys ∧ (v.del n = true ∨ raw (record e.tab n) f.slot ≠ enc)) ∨ (n = e.phys ∧ v.new n = none))
  | _ => False

/-- What the user sees of record `n`. -/
def kindOf (e : EEnv) (v : View) (n : Nat) : Kind :=
  if v.editing = false then .notChanged
  else if n < e.phys then (if v.del n then .deleted else .notChanged)
  else if (v.new n).isSome then .inserted else .notChanged

/-- Fields lie inside the record, and a value is given as the bytes of its field. -/
def FieldsFit (e : EEnv) : Prop := ∀ f ∈ e.fields, f.slot.offset + f.slot.size ≤ e.tab.reclen

def OpFits (e : EEnv) : EOp → Prop
  | .put _ fi _ enc => ∀ f, e.fields[fi]? = some f → enc.length = f.slot.size
  | _ => True

/-- The table is open. -/
def Open (e : EEnv) : Prop := Whole e.tab e.phys ∧ FieldsFit e

end Verif.Record.Spec
