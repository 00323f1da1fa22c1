import Verif.Config.Select

/-! # Specification vocabulary: variants of a configuration file -/

namespace Verif.Config.Spec
open Verif

/-- The stored name of the variant of file `base` made by the update `g`. -/
def updateName (base : Str) (g : Bytes) : Str := base ++ "_dynupdate_".toList ++ Guid.as1C g

/-- Rank of variants: updates by their place in the list, above the original file, above anything else. -/
def rankOfUpdate (dynup : List Bytes) (g : Bytes) : Int :=
  if g ∈ dynup then dynup.idxOf g else -2

end Verif.Config.Spec
