import Verif.Db.Open
import Verif.Unicode.Spec

/-! # Specification vocabulary: database files -/

namespace Verif.Db.Spec
open Verif Verif.Unicode.Spec

/-- A 32-bit number, least significant byte first. -/
def le32 (n : Nat) : Bytes :=
  [UInt8.ofNat n, UInt8.ofNat (n / 256), UInt8.ofNat (n / 65536), UInt8.ofNat (n / 16777216)]

/-- The four bytes of a version. -/
def versionBytes : Ver → Bytes
  | .v8_0_3 => [8, 0, 3, 0]
  | .v8_0_5 => [8, 0, 5, 0]
  | .v8_1_0 => [8, 1, 0, 0]
  | .v8_2_0 => [8, 2, 0, 0]
  | .v8_2_14 => [8, 2, 14, 0]
  | .v8_3_8 => [8, 3, 8, 0]

/-- The page size of a file: up to version 8.2.14 it is 4096, later it is in the header. -/
def pageSize (v : Ver) (inHeader : Nat) : Nat := if v = .v8_3_8 then inHeader else 4096

/-- A consistent database file of a version with `n` pages: signature, version, number of
pages, a free number, page size, and a size of `n` pages. -/
def Consistent (file : Bytes) (v : Ver) (ps n : Nat) : Prop :=
  0 < ps ∧ file.length = n * ps ∧
  ∃ first inHeader rest, first < 2 ^ 32 ∧ inHeader < 2 ^ 32 ∧ n < 2 ^ 32 ∧ ps = pageSize v inHeader ∧
    file = [0x31, 0x43, 0x44, 0x42, 0x4d, 0x53, 0x56, 0x38] ++ versionBytes v ++ le32 n ++ le32 first ++
      le32 inHeader ++ rest

/-- Read-only: version 8.0 always, later versions unless opened exclusively. -/
def ReadOnly (v : Ver) (exclusive : Bool) : Prop := v = .v8_0_3 ∨ v = .v8_0_5 ∨ exclusive = false

instance (v : Ver) (e : Bool) : Decidable (ReadOnly v e) := by unfold ReadOnly; infer_instance

/-- A name among the tables, whatever its case. -/
def Has (names : List (List Nat)) (t : String) : Prop := ∃ n ∈ names, SameText n (t.toList.map Char.toNat)

/-- The tables of an information base. -/
def infobase : List String := ["CONFIG", "CONFIGSAVE", "PARAMS", "FILES", "DBSCHEMA"]
/-- The tables of a configuration depot. -/
def depot : List String := ["DEPOT", "USERS", "OBJECTS", "VERSIONS", "LABELS", "HISTORY", "LASTESTVERSIONS", "EXTERNALS",
  "SELFREFS", "OUTREFS"]

end Verif.Db.Spec
