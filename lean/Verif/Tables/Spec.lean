import Verif.Tables.Model
import Verif.Db.Spec
import Verif.Lost.Spec
import Verif.Object.TransferSpec

/-! # Specification vocabulary: the list of tables -/

namespace Verif.Tables.Spec
open Verif Object

/-- The contents of the root object: the language, the number of tables, the header page of each table's description. -/
def rootData (lang : Bytes) (bs : List Nat) : Bytes := lang ++ (Db.Spec.le32 bs.length ++ bs.flatMap Db.Spec.le32)

/-- What the next one to open the file finds: the root object, on page 2, names the tables `bs`. -/
def Names (v : Db.Ver) (pages : List Bytes) (bs : List Nat) : Prop :=
  ∃ o data, init pages 4096 false 2 = .ok o ∧ saveToFile pages 4096 o = .ok data ∧ Db.tableBlocks v data = .ok bs

/-- The root object in memory is whole, has the pages `ps`, and holds the language `lang` and the tables `bs`. -/
structure Holds (v : Db.Ver) (s : St) (sp : FreeSpec.State) (root : Obj) (ps : List Nat) (lang : Bytes) (bs : List Nat) : Prop where
  owned : Transfer.Owned s sp root ps
  block : root.block = 2
  field : lang.length = Db.langSize v
  few : (rootData lang bs).length ≤ 1023 * 4096
  words : ∀ b ∈ bs, b < 2 ^ 32
  len : root.len = (rootData lang bs).length
  bytes : Object.Spec.Begins s.pages 4096 Object.Spec.file80 2 (rootData lang bs)
  cached : root.data = none ∨ root.data = some (rootData lang bs)

/-- The pages of a file that deleting it gives back: all of them, but none if the file is empty. -/
def given : Option Obj → List Nat → List Nat
  | none, _ => []
  | some o, ps => if o.len = 0 then [] else ps

/-- The file is not longer than one allocation table covers. -/
def Short (o : Option Obj) : Prop := ∀ x, o = some x → x.len ≤ 1023 * 4096

/-- The lost object with header page `i` is the description of a table: its contents begin with `{"` in UTF-16. -/
def LostTable (pages : List Bytes) (live : List Lost.Live) (i : Nat) : Prop :=
  0 < i ∧ Lost.Spec.Marked pages i ∧ (∀ o ∈ live, o.block ≠ i) ∧ ∃ rest, Lost.Spec.Contents80 pages i ([0x7b, 0, 0x22, 0] ++ rest)

end Verif.Tables.Spec
