import Verif.Handle.Spec

/-!
# What is expected of temporary streams

Several processes run the program, one after another or at once. Each makes temporary streams, uses them and destroys them, and ends normally or
not. A process should see its streams as byte arrays, whatever the others do, and nothing should be left when all have ended.
-/

namespace Verif.Temp.Spec
open Verif Verif.Handle.Spec

/-- What a process does: make a stream, use its `i`-th stream, destroy it, end, or be killed. -/
inductive What where
  | new
  | use (i : Nat) (op : Op)
  | drop (i : Nat)
  | exit
  | crash

structure Event where
  proc : Nat
  what : What

/-- A stream as its user sees it: a byte array with a place; whether the last read met the end; whether it is open. -/
structure Stream where
  arr : Arr
  short : Bool
  opened : Bool

/-- A use of a stream, as in property C94: no write directly after a read that met the end, and no close of a closed stream. -/
def act (s : Stream) : Op → Option (Out × Stream)
  | .read n => some ((Handle.Spec.step s.arr (.read n)).1,
      ⟨(Handle.Spec.step s.arr (.read n)).2, decide (((s.arr.bytes.drop s.arr.pos).take n).length < n), true⟩)
  | .write w => if s.short then none else some ((Handle.Spec.step s.arr (.write w)).1, ⟨(Handle.Spec.step s.arr (.write w)).2, false, true⟩)
  | .seek off => some ((Handle.Spec.step s.arr (.seek off)).1, ⟨(Handle.Spec.step s.arr (.seek off)).2, s.short, s.opened⟩)
  | .close => if s.opened then some (.done, ⟨s.arr, false, false⟩) else none

/-- What process `p` should see, its streams being these (`none` for a destroyed one); `none` if it does something it must not. -/
def expect (p : Nat) : List (Option Stream) → List Event → Option (List Out)
  | _, [] => some []
  | ss, e :: es =>
    if e.proc ≠ p then expect p ss es
    else match e.what with
      | .new => (expect p (ss ++ [some ⟨⟨[], 0⟩, false, true⟩]) es).map (.done :: ·)
      | .use i op =>
        match ss[i]? with
        | some (some s) =>
          match act s op with
          | some (o, s') => (expect p (ss.set i (some s')) es).map (o :: ·)
          | none => none
        | _ => none
      | .drop i =>
        match ss[i]? with
        | some (some s) => if s.opened then (expect p (ss.set i none) es).map (.done :: ·) else none
        | _ => none
      | .exit => none
      | .crash => none

/-- The processes that have made a temporary stream and have not ended. -/
def users : (Nat → Bool) → List Event → Nat → Bool
  | u, [] => u
  | u, e :: es =>
    users (fun q => if q = e.proc then (match e.what with | .new => true | .exit => false | .crash => false | _ => u q) else u q) es

/-- While these events happen, no process other than `p` makes its first temporary stream, and none that has made one ends normally. -/
def Quiet (p : Nat) : (Nat → Bool) → List Event → Prop
  | _, [] => True
  | u, e :: es =>
    (e.proc ≠ p → (match e.what with | .new => u e.proc = true | .exit => u e.proc = false | _ => True)) ∧ Quiet p (users u [e]) es

end Verif.Temp.Spec
