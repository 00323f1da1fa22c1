import Verif.Basic

/-!
# What is expected of a storage of files that is a directory

The storage is a map from names to contents. A name is a path below the directory.
-/

namespace Verif.ConfigDir.Spec
open Verif

/-- A path, by its parts. -/
abbrev Path := List Str

/-- What there is at a path: a file, which the user may write or not, or a directory, where the user may make files or not. -/
inductive Node where
  | file (b : Bytes) (rw : Bool)
  | dir (rw : Bool)
  deriving DecidableEq, Repr

/-- The file system. -/
abbrev Fs := Path → Option Node

/-- What a user does: writes a file; copies one file of the storage to another; reads one; asks whether it is there. -/
inductive Op where
  | write (name : Path) (b : Bytes)
  | copy (source name : Path)
  | read (name : Path)
  | there (name : Path)

def Op.names : Op → List Path
  | .write n _ => [n]
  | .copy s n => [s, n]
  | .read n => [n]
  | .there n => [n]

/-- What comes of it. -/
inductive Out where
  | wrote (ok : Bool)
  | content (b : Option Bytes)
  | is (b : Bool)
  deriving DecidableEq, Repr

/-- The storage as a map. -/
abbrev Store := Path → Option Bytes

def Store.set (m : Store) (n : Path) (b : Bytes) : Store := fun k => if k = n then some b else m k

/-- One operation. Copying from a name that is not there does nothing. -/
def step (m : Store) : Op → Out × Store
  | .write n b => (.wrote true, m.set n b)
  | .copy s n => match m s with
    | some b => (.wrote true, m.set n b)
    | none => (.wrote false, m)
  | .read n => (.content (m n), m)
  | .there n => (.is (m n).isSome, m)

def run : Store → List Op → List Out × Store
  | m, [] => ([], m)
  | m, op :: ops => ((step m op).1 :: (run (step m op).2 ops).1, (run (step m op).2 ops).2)

/-- The name can be used: there is a file the user may write, or nothing, in a directory where the user may make files. -/
def Usable (fs : Fs) (root : Path) (n : Path) : Prop :=
  n ≠ [] ∧ fs (root ++ n).dropLast = some (.dir true) ∧ (fs (root ++ n) = none ∨ ∃ b, fs (root ++ n) = some (.file b true))

/-- The storage a directory is. -/
def view (fs : Fs) (root : Path) : Store := fun n =>
  match fs (root ++ n) with
  | some (.file b _) => some b
  | _ => none

end Verif.ConfigDir.Spec
