import Verif.Container.OpenSpec
import Verif.Zlib.Spec

/-!
# What the user of an update file (`.cfu`) does and expects

The contents are those of a container (`Verif.Container.Spec`): flushing, and closing and opening the file, change nothing.
-/

namespace Verif.Cfu.Spec
open Verif Verif.Container.Spec

/-- What the user does. `half` lets go of the file and takes it up again (`HalfClose`, `HalfOpen`); `reopen` closes the container, opens
the file again, and does `half` before anything else. -/
inductive Act where
  | put (n : List Nat) (b : Bytes) (now : Nat)
  | remove (n : List Nat)
  | flush
  | half
  | reopen

/-- The expected effect. -/
def effect (c : Contents) : Act → Contents
  | .put n b _ => store n b c
  | .remove n => Container.Spec.drop n c
  | .flush => c
  | .half => c
  | .reopen => c

/-- Something has been stored, now or before. -/
def written (w : Bool) : Act → Bool
  | .put .. => true
  | _ => w

/-- The actions that neither let go of the file nor close it. -/
def keepsFile : Act → Prop
  | .put .. => True
  | .remove .. => True
  | .flush => True
  | .half => False
  | .reopen => False

/-- The decompressor stops at the end of a complete stream: bytes behind it are not looked at. This is more than `CorrectInflater` says,
and part of the contract of `inflate` as well. `rest` is what is left of the stream. -/
structure StopsAtEnd {τ : Type} (i : Zlib.Inflater τ) {D : Bytes → Option Bytes} (hi : Zlib.CorrectInflater i D) : Prop where
  /-- no error; the output is a part of the contents; if the room was used up, what is left of the input is a part of what was left of the
  stream, and the bytes behind it -/
  keeps : ∀ t u y rest junk cap c x, hi.Abs t u y → D c = some x → c = u ++ rest → y <+: x →
    (i.call t (rest ++ junk) cap).1 ≠ .error ∧ y ++ (i.call t (rest ++ junk) cap).2.2.2 <+: x ∧
    ((i.call t (rest ++ junk) cap).2.2.2.length = cap → ∃ used left, rest = used ++ left ∧
      (i.call t (rest ++ junk) cap).2.2.1 = left ++ junk ∧
      hi.Abs (i.call t (rest ++ junk) cap).2.1 (u ++ used) (y ++ (i.call t (rest ++ junk) cap).2.2.2))
  /-- if room is left, the end is reported and all contents have been produced -/
  ends : ∀ t u y rest junk cap c x, hi.Abs t u y → D c = some x → c = u ++ rest → y <+: x →
    (i.call t (rest ++ junk) cap).2.2.2.length < cap →
    (i.call t (rest ++ junk) cap).1 = .streamEnd ∧ y ++ (i.call t (rest ++ junk) cap).2.2.2 = x

end Verif.Cfu.Spec
