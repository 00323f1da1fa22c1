import Verif.Object.Transfer
import Verif.Object.WholeTheorems
import Verif.Unicode.Spec

/-! # Specification: files of a table carried over through a folder -/

namespace Verif.Object.Transfer
open Verif

/-- The internal file is whole and its pages are `ps`: its header, its allocation tables and its
data pages, all of them in use. -/
def Owned (s : St) (sp : FreeSpec.State) (o : Obj) (ps : List Nat) : Prop :=
  ∃ tabs datas, ps = o.block :: (tabs ++ datas) ∧ Opened80 s o tabs datas ∧ Within sp o.block tabs datas

/-- The same for a file that may be missing. -/
def Part (s : St) (sp : FreeSpec.State) : Option Obj → List Nat → Prop
  | some o, ps => Owned s sp o ps
  | none, ps => ps = []

/-- What the next one to open the database finds: the internal file with header page `h` has
the versions `v`, and saving it gives exactly the bytes `bs`. -/
def Carries (pages : List Bytes) (h : Nat) (bs : Bytes) (v : Nat × Nat) : Prop :=
  ∃ o, init pages 4096 false h = .ok o ∧ saveToFile pages 4096 o = .ok bs ∧ currentVersion o = v

/-- The contents `b` can take the place of the file `o`: not the lengths of
`set_whole_80_loses_last_page`, at most 254 allocation tables, and empty contents only where there
is nothing (`set_whole_80_empty_never_returns`). -/
structure Fits (o : Option Obj) (b : Bytes) : Prop where
  good : Spec.Good80 b.length
  size : b.length ≤ 254 * (1023 * 4096)
  old : ∀ x, o = some x → x.len ≤ 254 * (1023 * 4096)
  empty : b = [] → ∀ x, o = some x → x.len = 0

/-- Characters of a text of ASCII letters. -/
def ascii (s : String) : List Nat := s.toList.map Char.toNat

/-- The first occurrence of `mark` in `text` is right after `pre`. -/
def FirstAt (mark text pre : List Nat) : Prop :=
  (∃ post, text = pre ++ (mark ++ post)) ∧ ∀ a b, text = a ++ (mark ++ b) → pre.length ≤ a.length

/-- The number of a file in the description of the table: its header page, or 0. -/
def num (o : Option Obj) : Nat := (o.map Obj.block).getD 0

/-- How the description of a table names its files. -/
def filesSection (d b i : Nat) : List Nat :=
  ascii ("{\"Files\"," ++ toString d ++ "," ++ toString b ++ "," ++ toString i ++ "}\n}")

/-- Something of what is exported has no file in the destination. -/
def Missing (x t : Files) : Prop :=
  (x.data ≠ none ∧ t.data = none) ∨ (x.blob ≠ none ∧ t.blob = none) ∨ (x.index ≠ none ∧ t.index = none)

/-- Contents saved in the folder for an exported file can take the place of the file of the destination. -/
def FitsAll (x t : Files) (f : Folder) : Prop :=
  (∀ y, x.data = some y → y.ver1 < 2 ^ 32 ∧ y.ver2 < 2 ^ 32 ∧ ∀ c, f.data = some c → Fits t.data c) ∧
  (∀ y, x.blob = some y → y.ver1 < 2 ^ 32 ∧ y.ver2 < 2 ^ 32 ∧ ∀ c, f.blob = some c → Fits t.blob c) ∧
  (∀ y, x.index = some y → y.ver1 < 2 ^ 32 ∧ y.ver2 < 2 ^ 32 ∧ ∀ c, f.index = some c → Fits t.index c)

/-- The number of pages of the three saved files. -/
def pagesOf (f : Folder) : Nat :=
  ((f.data.getD []).length + 4095) / 4096 + ((f.blob.getD []).length + 4095) / 4096 + ((f.index.getD []).length + 4095) / 4096

/-- The exported file `y`, with contents `c` when it was saved, is now the file `o'` of the destination. -/
def Arrived (pages0 : List Bytes) (P0 : Nat) (pages : List Bytes) (y : Obj) (o' : Option Obj) : Prop :=
  ∃ c z, saveToFile pages0 P0 y = .ok c ∧ o' = some z ∧ Carries pages z.block c (currentVersion y)

/-- A file of the destination keeps its place. -/
def Stays (o o' : Option Obj) : Prop := ∀ y, o = some y → ∃ z, o' = some z ∧ z.block = y.block

end Verif.Object.Transfer
