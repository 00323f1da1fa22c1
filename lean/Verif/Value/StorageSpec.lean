import Verif.Value.Storage
import Verif.Depot.PackSpec

/-! # Specification vocabulary: stored values -/

namespace Verif.Value.Spec
open Verif Verif.Depot.Spec

/-- A value with a content: a header with its length, four bytes, the content with its length, and what follows. -/
def valueOf (head mark content tail : Bytes) : Bytes :=
  bytesLE 8 head.length ++ head ++ mark ++ bytesLE 8 content.length ++ content ++ tail

/-- The two forms in which a value is stored: as it is, or packed. -/
inductive StoredAs (inflate : Bytes → Option Bytes) (value : Bytes) : Bytes → Prop
  | plain : StoredAs inflate value ([1, 1] ++ value)
  | packed (z : Bytes) (h : inflate z = some value) : StoredAs inflate value ([2, 1] ++ SIG_ZIP ++ z)

end Verif.Value.Spec
