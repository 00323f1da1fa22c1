import Verif.Basic

/-!
# What is expected of a stream over a file

The file is a byte array; the stream is a place in it. Closing the stream changes nothing: it may be used
again afterwards. What must not happen is said by `closedTwice`: closing, or destroying, a stream that was closed and not
read or written since.
-/

namespace Verif.Handle.Spec
open Verif

/-- What a user does with a stream. -/
inductive Op where
  | read (n : Nat)
  | write (b : Bytes)
  | seek (off : Nat)
  | close

/-- Some close comes when the stream is closed already; `open?` says whether it is open before, and destroying it at the end
is one more close. -/
def closedTwice : Bool → List Op → Bool
  | o, [] => !o
  | _, .read _ :: ops => closedTwice true ops
  | _, .write _ :: ops => closedTwice true ops
  | o, .seek _ :: ops => closedTwice o ops
  | true, .close :: ops => closedTwice false ops
  | false, .close :: _ => true

/-- The file and the place. -/
structure Arr where
  bytes : Bytes
  pos : Nat
  deriving DecidableEq, Repr

/-- What an operation gives: the bytes read; the count written; whether a seek was refused. -/
inductive Out where
  | bytes (b : Bytes)
  | count (n : Nat)
  | moved (ok : Bool)
  | done
  deriving DecidableEq, Repr

/-- Writing at a place: what is there is replaced, and the file becomes longer if need be. -/
def put (b : Bytes) (pos : Nat) (w : Bytes) : Bytes := b.take pos ++ w ++ b.drop (pos + w.length)

def step (a : Arr) : Op → Out × Arr
  | .read n => (.bytes ((a.bytes.drop a.pos).take n), { a with pos := a.pos + ((a.bytes.drop a.pos).take n).length })
  | .write w => (.count w.length, ⟨put a.bytes a.pos w, a.pos + w.length⟩)
  | .seek off => if off ≤ a.bytes.length then (.moved true, { a with pos := off }) else (.moved false, a)
  | .close => (.done, a)

def run : Arr → List Op → List Out × Arr
  | a, [] => ([], a)
  | a, op :: ops => ((step a op).1 :: (run (step a op).2 ops).1, (run (step a op).2 ops).2)

/-- No write comes after a read that met the end of the file, unless the stream was closed in between. -/
def noWriteAfterShort : Bool → Arr → List Op → Prop
  | _, _, [] => True
  | _, a, .read n :: ops => noWriteAfterShort (decide (((a.bytes.drop a.pos).take n).length < n)) (step a (.read n)).2 ops
  | s, a, .write w :: ops => s = false ∧ noWriteAfterShort s (step a (.write w)).2 ops
  | s, a, .seek o :: ops => noWriteAfterShort s (step a (.seek o)).2 ops
  | _, a, .close :: ops => noWriteAfterShort false (step a .close).2 ops

end Verif.Handle.Spec
