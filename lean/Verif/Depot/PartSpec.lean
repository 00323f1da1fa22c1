import Verif.Depot.Part

/-! # Specification vocabulary: what changed between two versions of a depot -/

namespace Verif.Depot.Part.Spec
open Verif

/-- The last record of an object before version `vb`. -/
def before (vb : Int) (hist : List Hist) (o : Nat) : Option Hist := (hist.filter (fun h => h.obj = o ∧ h.ver < vb)).getLast?

/-- The last record of an object in the versions from `vb` to `ve`. -/
def within (vb ve : Int) (hist : List Hist) (o : Nat) : Option Hist := (hist.filter (fun h => h.obj = o ∧ vb ≤ h.ver ∧ h.ver ≤ ve)).getLast?

/-- The stored data of a record: its blob, or what is kept under its hash. -/
def Stored (E : Env) (data : Option Bytes) (hash d : Bytes) : Prop := data = some d ∨ data = none ∧ E.hashes = true ∧ E.pack hash = .ok (some d)

/-- The last record of an object with data in the versions from `vb` to `ve`. -/
def dataIn (vb ve : Int) (hist : List Hist) (o : Nat) : Option Hist :=
  (hist.filter (fun h => h.obj = o ∧ (vb ≤ h.ver ∧ h.ver ≤ ve) ∧ h.packed = true)).getLast?

/-- The files of the objects: for an object that has changed and was not removed, the contents `text` of its last record with data, unless
it is known to be what it was before. -/
def objectItems (text : Bytes → Option Bytes → Bytes) (before within data : Option Hist) : List Item :=
  match within, data with
  | some w, some r =>
    if w.removed then []
    else match before with
      | none => [.object r.obj (text r.hash r.data)]
      | some b => if b.packed ∧ b.data ≠ none ∧ b.hash = r.hash then [] else [.object r.obj (text r.hash r.data)]
  | _, _ => []

/-- The record with the data of the external file number `k`: the last one up to it of its object, with its name and
its identifier, that has data and is not older than `vb`. -/
def source (fold : Bytes → Bytes) (vb : Int) (exts : List Ext) (k : Nat) (e : Ext) : Option Ext :=
  ((exts.take (k + 1)).filter (fun x => x.obj = e.obj ∧ fold x.name = fold e.name ∧ x.verid = e.verid ∧ x.packed = true ∧ vb ≤ x.ver)).getLast?

/-- The external files of an object in version `v`. -/
def fileItems (text : Bytes → Option Bytes → Bytes) (fold : Bytes → Bytes) (vb : Int) (exts : List Ext) (o : Nat) (v : Int) : List Item :=
  exts.zipIdx.flatMap (fun p =>
    if p.1.obj = o ∧ p.1.ver = v then
      match source fold vb exts p.2 p.1 with
      | none => []
      | some x => [.file o p.1.name (text x.hash x.data)]
    else [])

/-- All files. -/
def items (text textOf : Bytes → Option Bytes → Bytes) (fold : Bytes → Bytes) (vb ve : Int) (hist : List Hist) (exts : List Ext) : List Item :=
  (hist.map (·.obj)).eraseDups.flatMap (fun o =>
    objectItems text (before vb hist o) (within vb ve hist o) (dataIn vb ve hist o) ++
    match within vb ve hist o with
    | none => []
    | some r => if r.removed then [] else fileItems textOf fold vb exts o r.ver)

/-- What was deleted: the objects that were there and whose last record is a removal, each with its files. -/
def gone (vb ve : Int) (hist : List Hist) (exts : List Ext) : List Gone :=
  (hist.map (·.obj)).eraseDups.flatMap (fun o =>
    match within vb ve hist o, before vb hist o with
    | some r, some _ => if r.removed then .object o :: (exts.filter (fun e => e.obj = o ∧ e.ver = r.ver)).map (fun e => .file e.name) else []
    | _, _ => [])

/-- Records in the order of their objects. -/
def HistOrder (hist : List Hist) : Prop := hist.Pairwise (fun a b => a.obj ≤ b.obj)

/-- External files in the order of objects and versions, each name once in a version. -/
def ExtOrder (fold : Bytes → Bytes) (exts : List Ext) : Prop :=
  exts.Pairwise (fun a b => a.obj < b.obj ∨ a.obj = b.obj ∧ (a.ver < b.ver ∨ a.ver = b.ver ∧ fold a.name ≠ fold b.name))

/-- The object is not one whose changed data is compared with the wrong buffer. -/
def Fresh (E : Env) (b w : Option Hist) : Prop :=
  ∀ r1 r2, b = some r1 → w = some r2 → r2.removed = false → r2.packed = true → r1.packed = true → r1.data ≠ none → E.hashes = true ∧ r1.hash = r2.hash

/-- The conditions under which an export is right. -/
structure Good (E : Env) (text textOf : Bytes → Option Bytes → Bytes) (hist : List Hist) (exts : List Ext) : Prop where
  order : ExtOrder E.fold exts
  objects : ∀ r ∈ hist, r.removed = false → r.packed = true → ∃ d, Stored E r.data r.hash d ∧ E.inflate d = (text r.hash r.data, true)
  files : ∀ x ∈ exts, x.packed = true → ∃ d, Stored E x.data x.hash d ∧
      textOf x.hash x.data = if (E.inflate d).2 then (E.inflate d).1 else (E.inflate d).1 ++ d

/-- The last record of the object has data, or none in between has. -/
def Settled (w d : Option Hist) : Prop := ∀ r, w = some r → r.removed = false → r.packed = false → d = none

end Verif.Depot.Part.Spec
