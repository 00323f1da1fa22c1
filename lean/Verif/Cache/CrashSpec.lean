import Verif.Cache.Spec

/-! # Specification: a file that was being replaced -/

namespace Verif.Cache.Spec
open Verif

/-- `t` bytes of the new contents are written over the old ones. -/
def interrupted (old new : Bytes) (t : Nat) : Bytes := new.take t ++ old.drop t

end Verif.Cache.Spec
