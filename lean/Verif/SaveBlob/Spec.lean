import Verif.Format.Spec
import Verif.Blob.Spec
import Verif.Value.UsersSpec
import Verif.Value.StorageSpec
import Verif.Container.Open

/-!
# What the content of a value is

The table and the first field of the record (its key in the system tables) are texts, as code points.
-/

namespace Verif.SaveBlob.Spec
open Verif Verif.Unicode.Spec Verif.Format.Spec Verif.Value.Spec

def cps (s : String) : List Nat := s.toList.map Char.toNat

/-- The record holds the list of users. -/
def UsersRow (table first : List Nat) : Prop :=
  (SameText table (cps "PARAMS") ∧ SameText first (cps "users.usr")) ∨ SameText table (cps "V8USERS")

/-- The value may be compressed twice: in the tables of the configuration if its name is longer than two identifiers; in every other table. -/
def Twice (table first : List Nat) : Prop :=
  (SameText table (cps "CONFIG") ∨ SameText table (cps "CONFIGSAVE")) → (utf8Text first).length > 72

/-- The content `x` of a value `b`. -/
inductive Content (z : Bytes → Outcome Bytes) (system : Bool) (table first : List Nat) : Bytes → Bytes → Prop
  /-- The list of users is masked. -/
  | users (key data) : system = true → UsersRow table first → key ≠ [] → key.length < 128 → Content z system table first (userRecord key data) data
  /-- Other values of the system may be compressed; containers and nothing at all are left out here. -/
  | plain {b x} (twice : Bool) : system = true → ¬ UsersRow table first → (twice = true ↔ Twice table first) → Decoded z twice b x → x ≠ [] →
      Container.isCatalog x = .ok false → Content z system table first b x
  /-- The values of the user have a header, or have not. -/
  | value {b} (head mark x tail) : system = false → mark.length = 4 → x ≠ [] → head.length < 2 ^ 63 → x.length < 2 ^ 63 →
      StoredAs (fun b => match z b with | .ok x => some x | _ => none) (valueOf head mark x tail) b → Content z system table first b x
  | other {b} : system = false → (∀ b0 rest, b = b0 :: 1 :: rest → b0 ≠ 1 ∧ b0 ≠ 2) → Content z system table first b b

/-- `b`, which is not empty, is the blob at `start` of `length` bytes in the file `f` of the blobs. -/
def Holding (f : Bytes) (start length : Nat) (b : Bytes) : Prop :=
  f.length < 2 ^ 32 ∧ b ≠ [] ∧ b.length = length ∧ ∃ s, Blob.Spec.Represents f s ∧ ∃ e ∈ s.blobs, e.first = start ∧ e.data = b

/-! ## A directory tree: files and directories by path. A file is made only in a directory that exists. -/

inductive Node where
  | file (b : Bytes)
  | dir
  deriving DecidableEq, Repr

/-- What there is at each path. -/
abbrev Tree := List Str → Option Node

/-- A file is written. -/
def Tree.write (t : Tree) (p : List Str) (b : Bytes) : Tree :=
  if t p.dropLast = some .dir ∧ t p ≠ some .dir then fun q => if q = p then some (.file b) else t q else t

/-- Files are written one after another. -/
def Tree.writeAll (t : Tree) (ws : List (List Str × Bytes)) : Tree := ws.foldl (fun t w => t.write w.1 w.2) t

end Verif.SaveBlob.Spec
