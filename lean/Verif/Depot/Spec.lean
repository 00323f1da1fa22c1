import Verif.Depot.Export

/-! # Specification vocabulary: versions of a configuration depot -/

namespace Verif.Depot.Spec
open Verif

/-- The record is the newest of its object, up to version `n`, that either carries data or marks a
removal, and it carries data. -/
def Newest (n : Int) (hist : List Hist) (r : Hist) : Prop :=
  ∃ before after, hist = before ++ r :: after ∧ r.ver ≤ n ∧ r.removed = false ∧ r.packed = true ∧
    ∀ h ∈ after, h.obj = r.obj → h.ver ≤ n → h.removed = false ∧ h.packed = false

/-- The external data belongs to the exported record `r`: it is the newest of its object and name, up to
version `n`, that carries data, and the object had external data of this name in the version of `r`. -/
def Belongs (fold : Bytes → Bytes) (n : Int) (exts : List Ext) (r : Hist) (e : Ext) : Prop :=
  (∃ before after, exts = before ++ e :: after ∧ e.obj = r.obj ∧ e.ver ≤ n ∧ e.packed = true ∧
    ∀ f ∈ after, f.obj = r.obj → f.ver ≤ n → f.packed = true → fold f.name ≠ fold e.name) ∧
  ∃ f ∈ exts, f.obj = r.obj ∧ f.ver = r.ver ∧ fold f.name = fold e.name

/-- Records in the order of their objects. -/
def HistOrder (hist : List Hist) : Prop := hist.Pairwise (fun a b => a.obj ≤ b.obj)
def ExtOrder (exts : List Ext) : Prop := exts.Pairwise (fun a b => a.obj ≤ b.obj)

end Verif.Depot.Spec
