import Verif.Tref.Theorems

/-! # Property theorems: table numbers in references -/

namespace Verif.Tref
open Verif

/-- A table number that is stored in a reference reads back, also what a negative number of the file becomes. -/
theorem number_reads_back (z : Int) : (bytesOf z).length = 4 ∧ (bigEndian (bytesOf z) : Int) = z % 2 ^ 32 := by
  refine ⟨rfl, ?_⟩
  simp only [bytesOf, bigEndian, List.foldl_cons, List.foldl_nil, UInt8.toNat_ofNat']
  omega

example : bytesOf 258 = [0, 0, 1, 2] ∧ bytesOf (-1) = [255, 255, 255, 255] := by decide

end Verif.Tref
