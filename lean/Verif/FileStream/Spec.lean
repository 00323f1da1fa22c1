import Verif.Basic

/-!
# Specification: several cursors over one byte array
-/

namespace Verif.FileStream.Spec
open Verif

/-- The contents of the file and the positions of the streams. -/
structure Shared where
  contents : Bytes
  cursors : List Nat
  deriving DecidableEq

inductive Op where
  | openStream
  | read (i n : Nat)
  | write (i : Nat) (buf : Bytes)
  | seekTo (i o : Nat)
  | seekBy (i : Nat) (o : Int)
  | seekEnd (i : Nat)
  | readAt (p n : Nat)
  | writeAt (p : Nat) (buf : Bytes)
  | replace (buf : Bytes)

inductive Out where
  | bytes (b : Bytes)
  | num (n : Nat)
  deriving DecidableEq

/-- The contents with `buf` written over them from `p` on. -/
def put (c : Bytes) (p : Nat) (buf : Bytes) : Bytes := c.take p ++ buf ++ c.drop (p + buf.length)

/-- What an operation does; `none` if it is not one a caller may issue: the stream is not open, the position is outside the
file, or the file would reach 2 GiB. -/
def step (s : Shared) : Op → Option (Shared × Out)
  | .openStream => some (⟨s.contents, s.cursors ++ [0]⟩, .num s.cursors.length)
  | .read i n => do
    let p ← s.cursors[i]?
    if p ≤ s.contents.length then
      let b := (s.contents.drop p).take n
      some (⟨s.contents, s.cursors.set i (p + b.length)⟩, .bytes b)
    else none
  | .write i buf => do
    let p ← s.cursors[i]?
    if p ≤ s.contents.length ∧ p + buf.length < 2 ^ 31 then
      some (⟨put s.contents p buf, s.cursors.set i (p + buf.length)⟩, .num buf.length)
    else none
  | .seekTo i o => do
    let _ ← s.cursors[i]?
    some (⟨s.contents, s.cursors.set i (min o s.contents.length)⟩, .num (min o s.contents.length))
  | .seekBy i o => do
    let p ← s.cursors[i]?
    if 0 ≤ (p : Int) + o then
      let q := min ((p : Int) + o).toNat s.contents.length
      some (⟨s.contents, s.cursors.set i q⟩, .num q)
    else none
  | .seekEnd i => do
    let _ ← s.cursors[i]?
    some (⟨s.contents, s.cursors.set i s.contents.length⟩, .num s.contents.length)
  | .readAt p n => if p ≤ s.contents.length then some (s, .bytes ((s.contents.drop p).take n)) else none
  | .writeAt p buf =>
    if p ≤ s.contents.length ∧ p + buf.length < 2 ^ 31 then some (⟨put s.contents p buf, s.cursors⟩, .num buf.length) else none
  | .replace buf => if buf.length < 2 ^ 31 then some (⟨buf, s.cursors⟩, .num buf.length) else none

def run (s : Shared) : List Op → Option (Shared × List Out)
  | [] => some (s, [])
  | op :: ops => do
    let (s, o) ← step s op
    let (s, os) ← run s ops
    some (s, o :: os)

end Verif.FileStream.Spec
