import Verif.Links.Model

/-! # Specification of trees in memory -/

namespace Verif.Links.Spec
open Verif Tree

/-- What a node is: its type and value, the node it is below, its children in order. -/
structure Entry where
  type : NType
  value : Str
  parent : Option Nat
  kids : List Nat

/-- All nodes in existence, by name. -/
structure Forest where
  node : Nat → Option Entry
  fresh : Nat

/-- No nodes. -/
def none_ : Forest := ⟨fun _ => none, 0⟩

/-- `j` is `i` or a node somewhere below it. -/
inductive Below (f : Forest) (i : Nat) : Nat → Prop where
  | self : Below f i i
  | step {j k e} : f.node j = some e → e.parent = some k → Below f i k → Below f i j

/-- A new root. -/
def root (f : Forest) (t : NType) (v : Str) : Forest :=
  ⟨fun j => if j = f.fresh then some ⟨t, v, none, []⟩ else f.node j, f.fresh + 1⟩

/-- A new last child of `p`. -/
def child (f : Forest) (p : Nat) (t : NType) (v : Str) : Forest :=
  ⟨fun j => if j = f.fresh then some ⟨t, v, some p, []⟩
            else if j = p then (f.node p).map (fun e => { e with kids := e.kids ++ [f.fresh] })
            else f.node j, f.fresh + 1⟩

/-- `f'` is `f` without `i` and everything below it. -/
structure Removed (f : Forest) (i : Nat) (f' : Forest) : Prop where
  fresh : f'.fresh = f.fresh
  gone : ∀ j, Below f i j → f'.node j = none
  kept : ∀ j, ¬ Below f i j →
    f'.node j = (f.node j).map (fun e => { e with kids := e.kids.filter (fun k => decide (k ≠ i)) })

/-- `i` has another type and value. -/
def relabel (f : Forest) (i : Nat) (t : NType) (v : Str) : Forest :=
  { f with node := fun j => if j = i then (f.node i).map (fun e => { e with type := t, value := v }) else f.node j }

/-- What a program may do with trees. -/
inductive Op where
  | root (v : Str) (t : NType)
  | child (p : Nat) (v : Str) (t : NType)
  | sibling (i : Nat)
  | set (i : Nat) (v : Str) (t : NType)
  | delete (i : Nat)

/-- The effect of each, on nodes that exist. -/
inductive Step : Forest → Op → Forest → Prop where
  | root {f v t} : Step f (.root v t) (root f t v)
  | child {f p e v t} : f.node p = some e → Step f (.child p v t) (child f p t v)
  | sibling {f i e p} : f.node i = some e → e.parent = some p → Step f (.sibling i) (child f p .empty [])
  | siblingRoot {f i e} : f.node i = some e → e.parent = none → Step f (.sibling i) (Spec.root f .empty [])
  | set {f i e v t} : f.node i = some e → Step f (.set i v t) (relabel f i t v)
  | delete {f i e f'} : f.node i = some e → Removed f i f' → Step f (.delete i) f'

inductive Steps : Forest → List Op → Forest → Prop where
  | nil {f} : Steps f [] f
  | cons {f o g os k} : Step f o g → Steps g os k → Steps f (o :: os) k

mutual
/-- The tree hanging from a node. -/
inductive Shows (f : Forest) : Nat → Node → Prop where
  | mk {i t v p ks ns} : f.node i = some ⟨t, v, p, ks⟩ → ShowsAll f ks ns → Shows f i (.mk t v ns)
inductive ShowsAll (f : Forest) : List Nat → List Node → Prop where
  | nil : ShowsAll f [] []
  | cons {i is n ns} : Shows f i n → ShowsAll f is ns → ShowsAll f (i :: is) (n :: ns)
end

/-- The way from a root down to a node, by positions among the children. -/
inductive Positions (f : Forest) : Nat → List Nat → Prop where
  | root {i e} : f.node i = some e → e.parent = none → Positions f i []
  | step {i e p ep k ps} : f.node i = some e → e.parent = some p → f.node p = some ep →
      ep.kids[k]? = some i → Positions f p ps → Positions f i (ps ++ [k])

end Verif.Links.Spec
