import Verif.Basic

/-! # Specification vocabulary: a reader of exported documents -/

namespace Verif.Export.Spec
open Verif

/-- Where a reader of attributes is: between attributes, in a key, before the value of a key, in it. -/
inductive At where
  | between
  | key (k : Str)
  | opening (k : Str)
  | value (k v : Str)

/-- Attributes, as ` key="value"` one after the other. -/
def attrs : At → Str → Option (List (Str × Str))
  | .between, [] => some []
  | _, [] => none
  | .between, c :: s => if c = ' ' then attrs (.key []) s else none
  | .key k, c :: s => if c = '=' then attrs (.opening k) s else attrs (.key (k ++ [c])) s
  | .opening k, c :: s => if c = '"' then attrs (.value k []) s else none
  | .value k v, c :: s => if c = '"' then (attrs .between s).map ((k, v) :: ·) else attrs (.value k (v ++ [c])) s

/-- What a document holds: attributes of the table, attributes of each field, and for each record the
names of its values with their text (`none`: an empty element). -/
structure Doc where
  table : List (Str × Str)
  fields : List (List (Str × Str))
  rows : List (List (Str × Option Str))
  deriving DecidableEq

/-- Where the reader is. -/
inductive Mode where
  | prolog
  | table
  | fields
  | between
  | records
  | record (done : List (Str × Option Str))
  | cell (done : List (Str × Option Str)) (name value : Str)
  | after
  | done

/-- Text or a mark (what is between `<` and `>`). -/
inductive Tok where
  | char (c : Char)
  | mark (m : Str)

/-- The mark of an empty element without its slash. -/
def emptyMark (m : Str) : Option Str := if m.getLast? = some '/' then some m.dropLast else none

/-- One step of the reader. -/
def step (d : Doc) : Mode → Tok → Option (Doc × Mode)
  | .cell cs n v, .char c => some (d, .cell cs n (v ++ [c]))
  | m, .char _ => some (d, m)
  | .prolog, .mark m =>
    if m.take 5 = "Table".toList then (attrs .between (m.drop 5)).map (fun as => ({ d with table := as }, .table))
    else some (d, .prolog)
  | .table, .mark m => if m = "Fields".toList then some (d, .fields) else none
  | .fields, .mark m =>
    if m = "/Fields".toList then some (d, .between)
    else if m.take 5 = "Field".toList then
      (emptyMark (m.drop 5)).bind (fun m => (attrs .between m).map (fun as => ({ d with fields := d.fields ++ [as] }, .fields)))
    else none
  | .between, .mark m => if m = "Records".toList then some (d, .records) else none
  | .records, .mark m =>
    if m = "/Records".toList then some (d, .after)
    else if m = "Record".toList then some (d, .record [])
    else none
  | .record cs, .mark m =>
    if m = "/Record".toList then some ({ d with rows := d.rows ++ [cs] }, .records)
    else match emptyMark m with
      | some n => some (d, .record (cs ++ [(n, none)]))
      | none => some (d, .cell cs m [])
  | .cell cs n v, .mark m => if m = '/' :: n then some (d, .record (cs ++ [(n, some v)])) else none
  | .after, .mark m => if m = "/Table".toList then some (d, .done) else none
  | .done, .mark _ => none

/-- Reading; the third argument is the mark that was begun. -/
def readGo : Doc → Mode → Option Str → Str → Option Doc
  | d, .done, none, [] => some d
  | _, _, _, [] => none
  | d, m, none, c :: s =>
    if c = '<' then readGo d m (some []) s
    else (step d m (.char c)).bind (fun p => readGo p.1 p.2 none s)
  | d, m, some t, c :: s =>
    if c = '>' then (step d m (.mark t)).bind (fun p => readGo p.1 p.2 none s)
    else readGo d m (some (t ++ [c])) s

/-- What a reader gets from a document. -/
def read (s : Str) : Option Doc := readGo ⟨[], [], []⟩ .prolog none s

/-- A name that can stand in a mark and in an attribute. -/
def GoodName (n : Str) : Prop := n ≠ [] ∧ ∀ c ∈ n, c ≠ '<' ∧ c ≠ '>' ∧ c ≠ '"' ∧ c ≠ '/'

/-- A value a reader gets back: null, or a text without a raw `<`. -/
def Plain (v : Option Str) : Prop := ∀ t, v = some t → '<' ∉ t

end Verif.Export.Spec
