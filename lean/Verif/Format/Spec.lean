import Verif.Unicode.Spec
import Verif.Tree.Model

/-!
# What it means that a stored text can be read

A text is stored behind a mark of its encoding, possibly behind the header of a spreadsheet or of a report schema. If it begins (blanks
aside) with a brace, it is a bracket text (property C41).
-/

namespace Verif.Format.Spec
open Verif Verif.Unicode.Spec

/-- The mark of UTF-8 and that of UTF-16. -/
def mark8 : Bytes := [0xEF, 0xBB, 0xBF]
def mark16 : Bytes := [0xFF, 0xFE]

/-- The first bytes of a spreadsheet, whose header has 13 bytes, and of a report schema, whose header has 24. -/
def sheet : Bytes := [0x4D, 0x4F, 0x58, 0x43, 0x45, 0x4C, 0]
def schema : Bytes := [0, 0, 0, 0, 1, 0, 0, 0]

/-- Blank characters: space, tabulator, ends of lines. -/
def blank (c : UInt8) : Bool := c == 0x20 || c == 9 || c == 13 || c == 10

/-- The text without its blanks at the beginning. -/
def body (t : Bytes) : Bytes := t.dropWhile blank

/-- The text begins with a brace. -/
def Bracket (t : Bytes) : Prop := (body t).head? = some 0x7B

/-- The bytes of a text are shown to the parser one by one. -/
def shown (t : Bytes) : List Char := t.map fun b => Char.ofNat b.toNat

/-- The text is no bracket text, or one that can be parsed. -/
def Parses (t : Bytes) : Prop := Bracket t → ∃ n, Tree.parseText (shown t) = .ok n

/-- Bytes that are whole characters in UTF-8. -/
def Whole (b : Bytes) : Prop := ∃ cps, (∀ c ∈ cps, Scalar c) ∧ b = utf8Text cps

/-- `x` is the text `t` (in UTF-8) behind a mark. -/
inductive Holds : Bytes → Bytes → Prop
  | utf8 (t) : Holds (mark8 ++ t) t
  | utf16 (cps) : (∀ c ∈ cps, Scalar c) → Holds (mark16 ++ utf16Text cps) (utf8Text cps)

/-- `x` is that behind a header, or without one. -/
inductive Stored : Bytes → Bytes → Prop
  | plain {x t} : Holds x t → Stored x t
  | sheet {h x t} : Spec.sheet <+: h → h.length = 13 → Holds x t → Stored (h ++ x) t
  | schema {h x t} : Spec.schema <+: h → h.length = 24 → Holds x t → Stored (h ++ x) t

/-- `x` is what a value `b` holds: a value may be compressed, and that of a supplier's configuration (`twice`) compressed again. -/
inductive Decoded (z : Bytes → Outcome Bytes) : Bool → Bytes → Bytes → Prop
  | raw {twice b} : z b = .throw → Decoded z twice b b
  | once {b x} : z b = .ok x → Decoded z false b x
  | inner {b x} : z b = .ok x → z x = .throw → Decoded z true b x
  | both {b x y} : z b = .ok x → z x = .ok y → Decoded z true b y

/-- The names, as code points, are these without regard to the case of letters. -/
def SameNames : List (List Nat) → List String → Prop
  | [], [] => True
  | n :: ns, w :: ws => SameText n (w.toList.map Char.toNat) ∧ SameNames ns ws
  | _, _ => False

/-- The fields of a table of files; the last one is optional. -/
def fileFields : List String := ["FILENAME", "CREATION", "MODIFIED", "ATTRIBUTES", "DATASIZE", "BINARYDATA"]

/-- The fields have the right names. -/
def FileFields (ns : List (List Nat)) : Prop := SameNames ns fileFields ∨ SameNames ns (fileFields ++ ["PARTNO"])
def SchemaFields (ns : List (List Nat)) : Prop := SameNames ns ["SERIALIZEDDATA"]

end Verif.Format.Spec
