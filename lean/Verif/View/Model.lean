import Verif.Links.Model

/-!
# The view of a bracket text in the graphical program (src/gtool1cd/models/skobka_tree_model.cpp)

The nodes are those of `Verif.Links.Model`. Simplifications: of Qt, an index is a row, a column and a pointer, and it is
valid when row and column are not negative (an index made by `createIndex` always has a model); the texts are lists of
UTF-16 units.
-/

namespace Verif.View
open Verif Tree Links

/-- `QModelIndex`. Serves the model of skobka_tree_model.cpp:44, 83, 102. -/
structure Idx where
  row : Int
  col : Int
  ptr : Option Nat
  deriving DecidableEq

/-- `QModelIndex()`. Serves the model of skobka_tree_model.cpp:73-95. -/
def nowhere : Idx := ⟨-1, -1, none⟩

/-- `QModelIndex::isValid`. Serves the model of skobka_tree_model.cpp:34-53. -/
def valid (x : Idx) : Bool := decide (0 ≤ x.row) && decide (0 ≤ x.col)

/-- `static_cast<Tree*>(x.internalPointer())->…` (skobka_tree_model.cpp:44, 83, 102). -/
def item (h : Heap) (x : Idx) : Outcome Cell :=
  match x.ptr with
  | none => .ub
  | some i => deref h i

/-- `SkobkaTreeModel::rowCount` (skobka_tree_model.cpp:34-53). -/
def rowCount (h : Heap) (root : Nat) (p : Idx) : Outcome Int :=
  if p.col > 0 then .ok 0
  else if valid p then do
    let c ← item h p
    .ok c.num
  else do
    let c ← deref h root
    .ok c.num

/-- `SkobkaTreeModel::columnCount` (skobka_tree_model.cpp:55-58). -/
def columnCount : Int := 2

/-- `QAbstractItemModel::hasIndex`. Serves the model of skobka_tree_model.cpp:73-95. -/
def hasIndex (h : Heap) (root : Nat) (row col : Int) (p : Idx) : Outcome Bool :=
  if row < 0 ∨ col < 0 then .ok false
  else do
    let n ← rowCount h root p
    .ok (decide (row < n) && decide (col < columnCount))

/-- The node whose children are asked for (skobka_tree_model.cpp:80-89). -/
def target (root : Nat) (p : Idx) : Outcome Nat :=
  if valid p then
    match p.ptr with
    | none => .ub
    | some i => .ok i
  else .ok root

/-- `SkobkaTreeModel::index` (skobka_tree_model.cpp:73-95). `none`: the loop of `get_subnode` still runs. -/
def index (fuel : Nat) (h : Heap) (root : Nat) (row col : Int) (p : Idx) : Outcome (Option Idx) := do
  if ← hasIndex h root row col p then do
    let i ← target root p
    match ← subnode fuel h i row with
    | none => .ok none
    | some none => .ok (some nowhere)
    | some (some k) => .ok (some ⟨row, col, some k⟩)
  else .ok (some nowhere)

/-- The loop of `index_of` (skobka_tree_model.cpp:65-69). -/
def indexFrom (fuel : Nat) (h : Heap) (p child : Nat) : Nat → Int → Outcome (Option Int)
  | 0, _ => .ok none
  | n + 1, i => do
    let c ← deref h p
    if i < c.num then do
      match ← subnode fuel h p i with
      | none => .ok none
      | some k => if k = some child then .ok (some i) else indexFrom fuel h p child n (i + 1)
    else .ok (some (-1))

/-- `index_of` (skobka_tree_model.cpp:60-71). -/
def indexOf (fuel : Nat) (h : Heap) (p : Option Nat) (child : Nat) : Outcome (Option Int) :=
  match p with
  | none => .ok (some (-1))
  | some p => indexFrom fuel h p child fuel 0

/-- `SkobkaTreeModel::parent` (skobka_tree_model.cpp:97-108). -/
def parent (fuel : Nat) (h : Heap) (root : Nat) (x : Idx) : Outcome (Option Idx) :=
  if valid x then do
    let c ← item h x
    match c.parent with
    | none => .ok (some nowhere)
    | some q =>
      if q = root then .ok (some nowhere)
      else do
        let qc ← deref h q
        match ← indexOf fuel h qc.parent q with
        | none => .ok none
        | some r => .ok (some ⟨r, 0, some q⟩)
  else .ok (some nowhere)

/-- `QString::left`: everything for a negative number. Serves the model of skobka_tree_model.cpp:114-119. -/
def left (t : Str) (n : Int) : Str := if n < 0 then t else t.take n.toNat

/-- `QString::indexOf(QChar)`. Serves the model of skobka_tree_model.cpp:114-119. -/
def indexOfChar (t : Str) (c : Char) : Int := if c ∈ t then (t.takeWhile (· ≠ c)).length else -1

/-- The first line (skobka_tree_model.cpp:114-119). -/
def firstLine (t : Str) : Str :=
  let k := indexOfChar t '\n'
  if k ≠ -1 then left t (k - 1) else t

/-- `trim_item_presentation` (skobka_tree_model.cpp:110-124). -/
def trim (t : Str) : Str :=
  let r := firstLine t
  if r.length > 40 then left r (40 - 3) ++ "...".toList else r

/-- The roles asked for (skobka_tree_model.cpp:133-135). -/
inductive Role where
  | display | edit | tip
  deriving DecidableEq

/-- What `data` gives: nothing, a text, or a device with the bytes of this base64 text. Serves the model of skobka_tree_model.cpp:137-171. -/
inductive Datum where
  | nothing
  | text (t : Str)
  | bytes (base64 : Str)
  deriving DecidableEq

/-- `qp.startsWith(p)` and then `qp.right(qp.size() - n)` (skobka_tree_model.cpp:156-160); `QString::right` gives everything for
a negative number. -/
def unprefix (t : Str) : Str :=
  if "#base64".toList <+: t then (if t.length < 8 then t else t.drop 8)
  else if "#data".toList <+: t then (if t.length < 6 then t else t.drop 6)
  else t

/-- The types shown as bytes (skobka_tree_model.cpp:151-153). -/
def isBinary (t : NType) : Bool := decide (t = .binary) || decide (t = .binary2) || decide (t = .binaryD)

/-- The value column (skobka_tree_model.cpp:137-171), for a node. -/
def dataColumn (fuel : Nat) (h : Heap) (i : Nat) (role : Role) : Outcome (Option Datum) := do
  let c ← deref h i
  if c.type = .list then .ok (some (.text ("{Элементов: ".toList ++ (toString c.num).toList ++ ['}'])))
  else
    match ← out fuel h i [] with
    | none => .ok none
    | some t =>
      if role = .display then .ok (some (.text (trim t)))
      else if role = .edit ∧ isBinary c.type then .ok (some (.bytes (unprefix t)))
      else .ok (some (.text t))

/-- `SkobkaTreeModel::data` (skobka_tree_model.cpp:126-178). -/
def data (fuel : Nat) (h : Heap) (x : Idx) (role : Role) : Outcome (Option Datum) :=
  if !valid x then .ok (some .nothing)
  else
    match x.ptr with
    | none => .ub
    | some i =>
      if x.col = 1 then dataColumn fuel h i role
      else if x.col = 0 then do
        match ← path fuel h i with
        | none => .ok none
        | some p => .ok (some (.text p))
      else .ok (some .nothing)

end Verif.View
