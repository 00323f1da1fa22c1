import Verif.Lost.Model
import Verif.Object.Spec
import Verif.App.Spec

/-! # Specification vocabulary: objects no table refers to -/

namespace Verif.Lost.Spec
open Verif Object

/-- Page `i` begins with the mark of an object of format 8.0. -/
def Marked (pages : List Bytes) (i : Nat) : Prop := ∃ rest, pages[i]? = some (App.Spec.word "1CDBOBV8" ++ rest)

/-- Page `i` is the header of an object of the database `b` that is not open. -/
def Lost (b : Nat) (pages : List Bytes) (live : List Live) (i : Nat) : Prop :=
  0 < i ∧ Marked pages i ∧ ⟨b, i⟩ ∉ live

/-- The object with header page `i` of format 8.0 can be read, and these are its bytes. -/
def Contents80 (pages : List Bytes) (i : Nat) (bs : Bytes) : Prop :=
  (∃ p, pages[i]? = some p ∧ p.length = 4096 ∧ Object.Spec.word p 8 = some bs.length) ∧ bs.length ≤ 1018 * (1023 * 4096) ∧
    Object.Spec.Holds pages 4096 Object.Spec.file80 i 0 bs

/-- A file directly in the directory `dir`. -/
def InDir (dir p : Bytes) : Prop := ∃ leaf, App.Spec.Within dir leaf p ∧ (47 : UInt8) ∉ leaf

end Verif.Lost.Spec
