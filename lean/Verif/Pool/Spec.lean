import Verif.Pool.Model

/-! # Specification vocabulary: objects in memory -/

namespace Verif.Pool.Spec
open Verif

/-- An object as its user sees it: its number, database and page, its contents, whether it is locked, and when it was last used. -/
structure Obj where
  id : Nat
  base : Nat
  block : Nat
  bytes : Bytes
  locked : Bool
  used : Option Nat
  deriving DecidableEq

/-- The objects in existence, in the order of their creation, and how many were ever made. -/
structure State where
  objs : List Obj
  made : Nat
  deriving DecidableEq

def State.init : State := ⟨[], 0⟩

/-- A change to one object. -/
def State.on (s : State) (i : Nat) (f : Obj → Obj) : State := { s with objs := s.objs.map (fun o => if o.id = i then f o else o) }

/-- What each operation means. Collecting garbage means nothing. -/
def State.step (s : State) : Op → State
  | .create base block bytes => ⟨s.objs ++ [⟨s.made, base, block, bytes, false, none⟩], s.made + 1⟩
  | .destroy i => { s with objs := s.objs.filter (fun o => o.id ≠ i) }
  | .get i t => s.on i (fun o => { o with used := some t })
  | .write i t bytes => s.on i (fun o => { o with bytes := bytes, used := some t })
  | .lock i t b => s.on i (fun o => { o with locked := b, used := some t })
  | .garbage _ => s

def State.run (s : State) (ops : List Op) : State := ops.foldl State.step s

/-- The object an operation is about. -/
def about : Op → Option Nat
  | .destroy i => some i
  | .get i _ => some i
  | .write i _ _ => some i
  | .lock i _ _ => some i
  | _ => none

/-- A history in which only objects in existence are used. -/
def Legal : State → List Op → Prop
  | _, [] => True
  | s, o :: os => (∀ i, about o = some i → i ∈ s.objs.map Obj.id) ∧ Legal (s.step o) os

/-- An operation that does not take the contents of the object away: it does not write to it or destroy it, and it collects
garbage only while the object is locked or at most five minutes after it was last used (on a 32-bit clock of milliseconds). -/
def Spares (s : State) (i : Nat) : Op → Prop
  | .destroy j => j ≠ i
  | .write j _ _ => j ≠ i
  | .garbage t => ∀ o ∈ s.objs, o.id = i → o.locked = true ∨ ∃ u, o.used = some u ∧ (t % 2 ^ 32 + 2 ^ 32 - u % 2 ^ 32) % 2 ^ 32 ≤ 300000
  | _ => True

/-- All of these operations spare the object. -/
def AllSpare (i : Nat) : State → List Op → Prop
  | _, [] => True
  | s, o :: os => Spares s i o ∧ AllSpare i (s.step o) os

/-- The locks a table holds after these calls. -/
def pending : List Bool → Nat
  | l => l.foldl (fun n b => if b then n + 1 else n - 1) 0

end Verif.Pool.Spec
