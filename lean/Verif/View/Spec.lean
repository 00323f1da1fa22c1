import Verif.View.Model
import Verif.Links.Spec

/-! # Specification: what a view of a tree shows -/

namespace Verif.View.Spec
open Verif Tree Links.Spec Verif.View

/-- The index that stands for a node below the root, and the empty index, which stands for the root. -/
inductive Stands (f : Forest) (root : Nat) : Idx → Nat → Prop where
  | root : Stands f root ⟨-1, -1, none⟩ root
  | item {i e p ep} {k : Nat} : f.node i = some e → e.parent = some p → f.node p = some ep → ep.kids[k]? = some i →
      Below f root p → Stands f root ⟨k, 0, some i⟩ i

/-- The view shows the tree below the root: the rows below an index are the children of its node in order, in two columns,
and the way back leads to the index. -/
structure Faithful (fuel : Nat) (h : Links.Heap) (f : Forest) (root : Nat) : Prop where
  rows : ∀ x i e, Stands f root x i → f.node i = some e → rowCount h root x = .ok e.kids.length
  down : ∀ x i e (k : Nat) (c : Int) (j : Nat), Stands f root x i → f.node i = some e → (c = 0 ∨ c = 1) → e.kids[k]? = some j →
    index fuel h root k c x = .ok (some ⟨k, c, some j⟩)
  outside : ∀ x i e (r c : Int), Stands f root x i → f.node i = some e → (r < 0 ∨ e.kids.length ≤ r ∨ c < 0 ∨ 2 ≤ c) →
    index fuel h root r c x = .ok (some ⟨-1, -1, none⟩)
  up : ∀ x i e (k : Nat) (c : Int) (j : Nat), Stands f root x i → f.node i = some e → (c = 0 ∨ c = 1) → e.kids[k]? = some j →
    parent fuel h root ⟨k, c, some j⟩ = .ok (some x)
  leaf : ∀ (k : Nat) (j : Nat), rowCount h root ⟨k, 1, some j⟩ = .ok 0
  all : ∀ j, Below f root j → ∃ x, Stands f root x j ∧ ∀ y, Stands f root y j → y = x

end Verif.View.Spec
