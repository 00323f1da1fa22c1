import Verif.Basic

/-!
# Pages as the object layer sees them

By `Verif.Cache.cache_transparent` page reads behave as reads of an array of
pages, so objects are modelled over a plain list of pages.
-/

namespace Verif.Object
open Verif

/-- `T_1CD::get_block` (Class_1CD.cpp:58-85): a page, or an exception for a number
outside the file. -/
def getPage (pages : List Bytes) (n : Nat) : Outcome Bytes :=
  match pages[n]? with
  | some p => .ok p
  | none => .throw

/-- A 32-bit little-endian load from a page; outside the page undefined. Serves the model of V8Object.cpp:148, 206. -/
def rd32 (p : Bytes) (off : Nat) : Outcome Nat :=
  match p[off]?, p[off + 1]?, p[off + 2]?, p[off + 3]? with
  | some a, some b, some c, some d =>
    .ok (a.toNat + 256 * b.toNat + 65536 * c.toNat + 16777216 * d.toNat)
  | _, _, _, _ => .ub

/-- `std::vector::operator[]`: outside the vector undefined. -/
def idx (v : List Nat) (i : Nat) : Outcome Nat :=
  match v[i]? with
  | some x => .ok x
  | none => .ub

/-- `v8objtype` (V8Object.h:88-95). -/
inductive Kind where
  | data80 | free80 | data838 | free838
  deriving DecidableEq, Repr

/-- `class V8Object` (V8Object.h:136-156), the fields that matter here. -/
structure Obj where
  kind : Kind
  block : Nat
  len : Nat
  fatlevel : Nat
  numblocks : Nat
  realNumblocks : Nat
  blocks : List Nat
  data : Option Bytes
  /-- `version.version_1`, `version.version_2` -/
  ver1 : Nat
  ver2 : Nat
  /-- `version_rec` -/
  rec1 : Nat
  rec2 : Nat
  recorded : Bool
  deriving DecidableEq, Repr

/-- Copy the first `n` root entries out of a header page (`std::copy(begin(t->blocks),
begin(t->blocks)+n, …)`, V8Object.cpp:148, 206). -/
def copyRoot (p : Bytes) (off : Nat) : Nat → Outcome (List Nat)
  | 0 => .ok []
  | n + 1 => do
    let v ← rd32 p off
    let vs ← copyRoot p (off + 4) n
    .ok (v :: vs)

/-- `while(t->blocks[real_numblocks]) real_numblocks++` (V8Object.cpp:126, 252). -/
def countRoot (p : Bytes) : Nat → Nat → Outcome Nat
  | 0, _ => .ub
  | fuel + 1, off => do
    let v ← rd32 p off
    if v = 0 then .ok 0 else do
      let n ← countRoot p fuel (off + 4)
      .ok (n + 1)

/-- `SIG_OBJ` (Constants.h): "1CDBOBV8". -/
def sigObj : Bytes := [0x31, 0x43, 0x44, 0x42, 0x4F, 0x42, 0x56, 0x38]

/-- `(len - 1) / unit + 1`, or 0 for an empty object. Serves the model of V8Object.cpp:77-271. -/
def roundUp (len unit : Nat) : Nat := if len = 0 then 0 else (len - 1) / unit + 1

/-- `V8Object::init(T_1CD*, int32_t)` (V8Object.cpp:77-271). `is838` is
`base->get_version() >= ver8_3_8_0`; `P` the page size (4096 before 8.3.8). The
64-bit length of the newer format is its low half plus 2^32 times its high half.
The fields after the version are set identically in all branches. -/
def init (pages : List Bytes) (P : Nat) (is838 : Bool) (n : Nat) : Outcome Obj := do
  let t ← getPage pages n
  if is838 = false then
    if t.take 8 ≠ sigObj then .throw
    else do
      let len ← rd32 t 8
      let v1 ← rd32 t 12
      let v2 ← rd32 t 16
      if n = 1 then do
        let real ← countRoot t 1019 24
        let bs ← copyRoot t 24 real
        .ok ⟨.free80, n, len, 1, roundUp len 0x400, real, bs, none, v1, v2, (v1 + 1) % 2 ^ 32, 0, false⟩
      else do
        let nb := roundUp len 0x3ff000
        let bs ← copyRoot t 24 nb
        .ok ⟨.data80, n, len, 1, nb, 0, bs, none, v1, v2, (v1 + 1) % 2 ^ 32, 0, false⟩
  else
    if n = 1 then
      if t.take 2 ≠ [0x1c, 0xff] then .throw
      else do
        let v1 ← rd32 t 4
        let real ← countRoot t (P / 4) 8
        let bs ← copyRoot t 8 real
        -- version.version_2 keeps the value it had before: not read, here 0
        .ok ⟨.free838, n, 0, 0, 0, real, bs, none, v1, 0, (v1 + 1) % 2 ^ 32, 0, false⟩
    else
      if t.take 2 ≠ [0x1c, 0xfd] then .throw
      else do
        let lo ← rd32 t 16
        let hi ← rd32 t 20
        let w ← rd32 t 0
        let fat := w / 65536
        let len := lo + 2 ^ 32 * hi
        if fat = 0 ∧ len > (P / 4 - 6) * P then .throw
        else do
          let v1 ← rd32 t 4
          let v2 ← rd32 t 8
          let nb := if fat = 0 then roundUp len P else roundUp len (P / 4 * P)
          let bs ← copyRoot t 24 nb
          .ok ⟨.data838, n, len, fat, nb, 0, bs, none, v1, v2, (v1 + 1) % 2 ^ 32, 0, false⟩

end Verif.Object
