import Verif.Stream.Model
import Verif.Depot.Pack

/-!
# Unwrapping a stored value (src/tool1cd/Field.cpp, `save_blob_to_file`, tables of the user)

`inflate` is `ZInflateStream` (property C16) on the bytes from the current position: its output, or `none` when it
throws. The stored file is what the last line writes: all of `_s` (Field.cpp:430-431).
-/

namespace Verif.Value
open Verif Verif.Stream Verif.Depot

/-- `SIG_ZIP` (Constants.h:35). -/
def SIG_ZIP : Bytes := [0x53, 0x4b, 0x6f, 0xf4, 0x88, 0x8d, 0xc1, 0x4e, 0xa0, 0xd5, 0xeb, 0xb6, 0xbd, 0xa0, 0xa7, 0x0d]

/-- `CopyFrom` with a signed count (TStream.cpp:93-114): a negative one is replaced by the size of the source. -/
def copyInt (dst src : Mem) (n : Int) : Outcome (Nat × Mem × Mem) :=
  if n = 0 then copyFrom dst src 0
  else if n < 0 then copyCount dst src 0
  else copyCount dst src n.toNat

/-- `*(int64_t*)_buf`. Serves the model of Field.cpp:417-425. -/
def readInt64 (b : Bytes) : Int := int64 (leNat b)

/-- The inner value (Field.cpp:363-393): `_s2`, or `none` for `isOK = false`. The blob's stream stands after its two first bytes. -/
def openStorage (inflate : Bytes → Option Bytes) (kind : UInt8) (b : Mem) : Outcome (Option Mem) :=
  if kind = 1 then do
    let (_, s2, _) ← copyInt Mem.empty b ((b.data.length : Int) - 2)
    .ok (some s2)
  else do
    let (sig, b) ← b.read 16
    if sig.length < 16 then .ok none
    else if sig ≠ SIG_ZIP then .ok none
    else .ok ((inflate (b.data.drop b.pos.toNat)).map (fun o => ⟨o, o.length⟩))

/-- The second length (Field.cpp:417-425). -/
def secondPart (s s2 : Mem) : Outcome Mem := do
  let (h, s2) ← (s2.seek 0 .begin).2.read 12
  if h.length < 12 then .ok s
  else
    let len2 := readInt64 (h.drop 4)
    if len2 ≤ (s2.data.length : Int) - 12 then do
      let s ← s.setSize 0
      let (_, s, _) ← copyInt s s2 len2
      .ok s
    else .ok s

/-- The first length (Field.cpp:406-427). -/
def firstPart (s s2 : Mem) (len1 : Int) : Outcome Mem :=
  if (s.data.length : Int) > len1 then do
    let s := (s.seek len1 .begin).2
    let s2 ← s2.setSize 0
    let (_, s2, s) ← copyInt s2 s ((s.data.length : Int) - len1)
    secondPart s s2
  else .ok s

/-- With the inner value open (Field.cpp:394-427). -/
def unwrap (s s2 : Mem) : Outcome Mem := do
  let (len, s2) ← (s2.seek 0 .begin).2.read 8
  if len.length < 8 then .ok s
  else do
    let s ← s.setSize 0
    let (_, s, s2) ← copyInt s s2 ((s2.data.length : Int) - 8)
    firstPart s s2 (readInt64 len)

/-- The branch for tables of the user (Field.cpp:357-432), for a blob of up to 10 MiB, which is in memory: the bytes of the
file. -/
def exportValue (inflate : Bytes → Option Bytes) (blob : Bytes) : Outcome Bytes := do
  let (_, s, b) ← copyFrom Mem.empty ⟨blob, blob.length⟩ 0
  let (h, b) ← (b.seek 0 .begin).2.read 2
  match h with
  | [b0, b1] =>
    if (b0 = 1 ∨ b0 = 2) ∧ b1 = 1 then do
      match ← openStorage inflate b0 b with
      | none => .ok s.data
      | some s2 => do
        let s ← unwrap s s2
        .ok s.data
    else .ok s.data
  | _ => .ok s.data

/-! ## Blobs over 10 MiB: temporary files (Field.cpp:235-237, 250-251, 361-362) -/

/-- `CopyFrom` between two file streams with a count other than 0 (TStream.cpp:93-100, 111-113, 126-136): destination and
source. -/
def fcopyCount (dst src : FileS) (n : Int) : FileS × FileS :=
  let n := if n ≤ 0 then src.size else n.toNat
  let r := src.read n
  ((dst.write (if r.1.isEmpty then List.replicate n 0 else r.1)).2, r.2)

/-- `CopyFrom` between two file streams. Serves the model of Field.cpp:363-393. -/
def fcopy (dst src : FileS) (n : Int) : FileS × FileS :=
  if n = 0 then
    let src := { src with pos := 0 }
    if src.size ≠ 0 then fcopyCount dst src src.size else (dst, src)
  else fcopyCount dst src n

/-- Serves the model of Field.cpp:363-393. -/
def FileS.new : FileS := ⟨[], 0, 0, false⟩

/-- Field.cpp:363-393 with temporary files. -/
def openLarge (inflate : Bytes → Option Bytes) (kind : UInt8) (b : FileS) : Option FileS :=
  if kind = 1 then some (fcopy FileS.new b ((b.size : Int) - 2)).1
  else
    let r := b.read 16
    if r.1.length < 16 then none
    else if r.1 ≠ SIG_ZIP then none
    else (inflate (r.2.file.drop r.2.pos)).map (fun o => ⟨o, o.length, o.length, false⟩)

/-- Field.cpp:417-425 with temporary files. -/
def secondLarge (s s2 : FileS) : FileS :=
  let r := { s2 with pos := 0 }.read 12
  if r.1.length < 12 then s
  else
    let len2 := readInt64 (r.1.drop 4)
    if len2 ≤ (r.2.size : Int) - 12 then (fcopy (s.setSize 0) r.2 len2).1 else s

/-- Field.cpp:394-427 with temporary files. `none`: a negative first length, not modelled (it puts the stream in a failed
state). -/
def unwrapLarge (s s2 : FileS) : Option FileS :=
  let r := { s2 with pos := 0 }.read 8
  if r.1.length < 8 then some s
  else
    let c := fcopy (s.setSize 0) r.2 ((r.2.size : Int) - 8)
    let len1 := readInt64 r.1
    if (c.1.size : Int) > len1 then
      if len1 < 0 then none
      else
        let c' := fcopy (c.2.setSize 0) { c.1 with pos := len1.toNat } ((c.1.size : Int) - len1)
        some (secondLarge c'.2 c'.1)
    else some c.1

/-- Field.cpp:357-432 with temporary files: the bytes of the file. -/
def exportLarge (inflate : Bytes → Option Bytes) (blob : Bytes) : Option Bytes :=
  let c := fcopy FileS.new ⟨blob, blob.length, blob.length, false⟩ 0
  let r := { c.2 with pos := 0 }.read 2
  let out := fun (s : FileS) => (fcopy FileS.new s 0).1.file
  match r.1 with
  | [b0, b1] =>
    if (b0 = 1 ∨ b0 = 2) ∧ b1 = 1 then
      match openLarge inflate b0 r.2 with
      | none => some (out c.1)
      | some s2 => (unwrapLarge c.1 s2).map out
    else some (out c.1)
  | _ => some (out c.1)

end Verif.Value
