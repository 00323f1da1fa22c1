import Verif.Index.Edit
import Verif.Index.Spec

/-! # Specification vocabulary: changing a leaf page -/

namespace Verif.Index.Spec
open Verif Index

/-- `new` is `old` with the entry `e` put after all smaller keys and before the others. -/
def Inserted (e : Entry) (old new : List Entry) : Prop :=
  ∃ a b, old = a ++ b ∧ new = a ++ e :: b ∧ (∀ x ∈ a, Before x.key e.key) ∧ (∀ x ∈ b, Before e.key x.key ∨ x.key = e.key)

/-- `new` is `old` without the first occurrence of the entry `e`. -/
def Removed (e : Entry) (old new : List Entry) : Prop :=
  ∃ a b, old = a ++ e :: b ∧ new = a ++ b ∧ e ∉ a

/-- The entries take no more room than a page of this size has. -/
def Fits (pagesize len : Nat) (es : List Entry) (w : Nat) : Prop := es.length * w + stored len none es ≤ pagesize - 30

/-- The unpacker stays inside the page: eight bytes from the last record on are in it. -/
def Readable (pagesize : Nat) (es : List Entry) (w : Nat) : Prop := es.length * w + 38 ≤ pagesize + w

/-- The last two keys differ. -/
def EndsApart (es : List Entry) : Prop := ∀ pre a b, es = pre ++ [a, b] → a.key ≠ b.key

/-- Flags and links of a page. -/
def header (page : Bytes) : Bytes × Bytes := (page.take 2, (page.drop 4).take 8)

end Verif.Index.Spec
