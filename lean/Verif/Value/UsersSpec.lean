import Verif.Basic

/-! # Specification vocabulary: masked user data -/

namespace Verif.Value.Spec
open Verif

/-- Each byte of the data combined with the byte of the key below it, the key being repeated. -/
def masked (key : Bytes) (data : Bytes) : Bytes := data.mapIdx (fun i b => b ^^^ key.getD (i % key.length) 0)

/-- A user record: the size of the key, the key, the masked data. -/
def userRecord (key data : Bytes) : Bytes := UInt8.ofNat key.length :: key ++ masked key data

end Verif.Value.Spec
