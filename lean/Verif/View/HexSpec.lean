import Verif.View.Hex

/-! # Specification: editing bytes and going back -/

namespace Verif.View.Hex.Spec
open Verif Verif.View.Hex

/-- The bytes before and after the present ones, the nearest first. -/
structure History where
  past : List Bytes
  now : Bytes
  next : List Bytes
  deriving DecidableEq, Repr

/-- What an edit makes of the bytes; `none` for going back or forth. -/
def edited (b : Bytes) : Op → Option Bytes
  | .insert off data => some (b.take off ++ data ++ b.drop off)
  | .remove off len => some (b.take off ++ b.drop (off + len))
  | .replace off data => some (b.take off ++ data ++ b.drop (off + data.length))
  | .undo => none
  | .redo => none

/-- Edits drop what was undone; going back and forth moves along the history and stops at its ends. -/
def History.step (h : History) (op : Op) : History :=
  match op with
  | .undo => match h.past with
    | [] => h
    | p :: ps => ⟨ps, p, h.now :: h.next⟩
  | .redo => match h.next with
    | [] => h
    | n :: ns => ⟨h.now :: h.past, n, ns⟩
  | _ => match edited h.now op with
    | none => h
    | some b => ⟨h.now :: h.past, b, []⟩

/-- The edit is within the bytes. -/
def Within (b : Bytes) : Op → Prop
  | .insert off _ => off ≤ b.length
  | .remove off len => off + len ≤ b.length
  | .replace off data => off + data.length ≤ b.length
  | .undo => True
  | .redo => True

instance (b : Bytes) (op : Op) : Decidable (Within b op) := by unfold Within; cases op <;> infer_instance

/-- Every edit is within the bytes there are by then. -/
def Allowed : History → List Op → Prop
  | _, [] => True
  | h, op :: ops => Within h.now op ∧ Allowed (h.step op) ops

/-- The selected bytes: from the smaller of two offsets to the greater one. -/
def between (b : Bytes) (i j : Nat) : Bytes := (b.drop (min i j)).take (max i j - min i j + 1)

/-- `p` stands at offset `i`. -/
def StandsAt (b p : Bytes) (i : Nat) : Prop := ∃ pre post, b = pre ++ p ++ post ∧ pre.length = i

end Verif.View.Hex.Spec
