import Verif.Basic

/-!
# Masked user data (src/tool1cd/Field.cpp, `save_blob_to_file`, the branch for users.usr)

`char` is signed and `size_t` has 64 bits, as on the platforms the program is built for.
-/

namespace Verif.Value
open Verif

/-- The loop (Field.cpp:287-293) over the one buffer that holds the mask from `mask` on and the data from `base`
on; `n` is the size of the mask. A read or write outside the buffer is undefined. -/
def xorLoop (mask base n : Nat) : Nat → Nat → Nat → Bytes → Outcome Bytes
  | 0, _, _, bb => .ok bb
  | todo + 1, i, k, bb =>
    let k := if k ≥ n then 0 else k
    match bb[base + i]?, bb[mask + k]? with
    | some b, some m => xorLoop mask base n todo (i + 1) (k + 1) (bb.set (base + i) (b ^^^ m))
    | _, _ => .ub

/-- Unmasking (Field.cpp:277-297): the bytes written to the file. The blob is not empty (Field.cpp:240-244). A size
byte of 128 or more becomes a huge size, and the address of the data is computed outside the buffer; with a mask
longer than the blob the size of the data wraps around and the loop leaves the buffer. -/
def unmask (blob : Bytes) : Outcome Bytes :=
  match blob with
  | [] => .ub
  | b0 :: _ =>
    if b0.toNat ≥ 128 then .ub
    else
      let n := b0.toNat
      if blob.length < n + 1 then .ub
      else
        match xorLoop 1 (1 + n) n (blob.length - n - 1) 0 0 blob with
        | .ok bb => .ok (bb.drop (1 + n))
        | .throw => .throw
        | .ub => .ub

/-- What a row of the table is (Field.cpp:256-266): `same` is `EqualIC` (property C11). -/
def isUsers (same : Str → Str → Bool) (table : Str) (firstField : Str) : Bool :=
  if same table "PARAMS".toList then same firstField "users.usr".toList
  else same table "V8USERS".toList

end Verif.Value
