import Verif.Nested.Model
import Verif.Handle.Model
import Verif.Zlib.Model
import Verif.Cfu.Spec

/-!
# Update files (src/tool1cd/cfapi/V8Catalog.cpp: a container whose name ends in `.cfu`)

The container is kept in a memory stream (`data`); the file (`cfu`) holds its bytes, deflated as a whole. The entries are not packed
(`zipped = false`, V8Catalog.cpp:164). The file is a stream over a named file (`Verif.Handle`, property C94).
-/

namespace Verif.Cfu
open Verif Verif.Container Verif.Zlib Verif.Handle

/-- The compression library, and how many turns its loops are given for a source; running out of them is `ok none`. Serves the model of V8Catalog.cpp:155-206. -/
structure Lib (σ τ : Type) where
  z : Deflater σ
  i : Inflater τ
  fd : Bytes → Nat
  fi : Bytes → Nat

/-- An open `.cfu` container: the container in memory, the pointer `cfu`, and the disk. Serves the model of V8Catalog.cpp:190-206. -/
structure Cfu where
  k : Catalog
  cfu : Option Handle
  disk : Disk

variable {σ τ : Type}

/-- `ZInflateStream` (UZLib.cpp:101-153) from a file: the outer loop (113-149), with the state of the stream that is read. -/
def infFile (i : Inflater τ) (inner : Nat) (d : Disk) : Nat → Handle → τ → Bytes → Option (Outcome (Handle × Bytes))
  | 0, _, _, _ => none
  | fuel + 1, h, t, dst =>
    let r := Handle.read d h CHUNK
    if r.1.length = 0 then some (.ok (r.2, dst))
    else
      match infInner i inner t r.1 dst with
      | none => none
      | some .throw => some .throw
      | some .ub => some .ub
      | some (.ok (ret, t', dst')) =>
        if ret = .streamEnd then some (.ok (r.2, dst')) else infFile i inner d fuel r.2 t' dst'

/-- The rest of the constructor (V8Catalog.cpp:190-206): `none` if the bytes are no container, or one that cannot be read. -/
def start (fuel : Nat) (data : Bytes) (h : Handle) (d : Disk) : Outcome (Option (Option Cfu)) := do
  if ← isCatalog data then
    match ← initCatalog fuel data with
    | some (.container k) => .ok (some (some ⟨k, some h, d⟩))
    | some _ => .ok (some none)
    | none => .ok none
  else .ok (some none)

/-- `V8Catalog::V8Catalog(const string&)` (V8Catalog.cpp:155-206) with a name that ends in `.cfu`: a file that is not there is
created, empty; the container in memory is blank then. -/
def openCfu (L : Lib σ τ) (fuel : Nat) (d : Disk) : Outcome (Option (Option Cfu)) :=
  match d.bytes with
  | none => start fuel template (create d).1 (create d).2
  | some b =>
    match infFile L.i (L.fi b) d (L.fi b) (openH d) L.i.init [] with
    | none => .ok none
    | some .throw => .throw
    | some .ub => .ub
    | some (.ok (h, data)) => start fuel data h d

/-- What is in memory is deflated into the file from its beginning on (V8Catalog.cpp:740-742, 887-889). `ZDeflateStream` writes its
output in pieces, one behind the other, if there is any; here it is written at once (`write_append`). Its result is ignored. -/
def save (L : Lib σ τ) (d : Disk) (h : Handle) (data : Bytes) : Outcome (Option (Handle × Disk)) := do
  let h ← seek h 0
  match deflateStream L.z (L.fd data) data with
  | none => .ok none
  | some (_, out) => .ok (some (if out = [] then (h, d) else (write d h out).2))

/-- `if(data && cfu && is_modified)` (V8Catalog.cpp:738-743, 885-890). -/
def saveIf (L : Lib σ τ) (d : Disk) (cfu : Option Handle) (modified : Bool) (data : Bytes) : Outcome (Option (Option Handle × Disk)) :=
  match cfu with
  | none => .ok (some (none, d))
  | some h =>
    if modified then do
      match ← save L d h data with
      | none => .ok none
      | some (h, d) => .ok (some (some h, d))
    else .ok (some (some h, d))

/-- `V8Catalog::Flush` (V8Catalog.cpp:824-899). `is_modified` was set exactly if the version was counted up (868-873). -/
def flushCfu (L : Lib σ τ) (fuel : Nat) (c : Cfu) : Outcome (Option Cfu) := do
  match ← flush plainCodec fuel c.k with
  | none => .ok none
  | some k => do
    match ← saveIf L c.disk c.cfu (decide (k.ver ≠ c.k.ver)) k.cat.data.data with
    | none => .ok none
    | some (h, d) => .ok (some ⟨k, h, d⟩)

/-- `delete cfu`. Serves the model of V8Catalog.cpp:671-762. -/
def release : Option Handle → Outcome Unit
  | none => .ok ()
  | some h => Handle.destroy h

/-- `V8Catalog::~V8Catalog` (V8Catalog.cpp:671-762): what is on the disk. -/
def closeCfu (L : Lib σ τ) (fuel : Nat) (c : Cfu) : Outcome (Option Disk) := do
  match ← Nested.destroyMarked plainCodec fuel c.k with
  | none => .ok none
  | some (data, m) => do
    match ← saveIf L c.disk c.cfu m data with
    | none => .ok none
    | some (h, d) => do
      release h
      .ok (some d)

/-- `V8Catalog::HalfClose` (V8Catalog.cpp:903-918). -/
def halfClose (L : Lib σ τ) (fuel : Nat) (c : Cfu) : Outcome (Option Cfu) := do
  match ← flushCfu L fuel c with
  | none => .ok none
  | some c => do
    release c.cfu
    .ok (some { c with cfu := none })

/-- `V8Catalog::HalfOpen` (V8Catalog.cpp:922-928) with the same name. -/
def halfOpen (c : Cfu) : Cfu := { c with cfu := some (openH c.disk) }

/-- `HalfClose`, then `HalfOpen`. Built on V8Catalog.cpp:922-928. -/
def halfCycle (L : Lib σ τ) (fuel : Nat) (c : Cfu) : Outcome (Option Cfu) := do
  match ← halfClose L fuel c with
  | none => .ok none
  | some c => .ok (some (halfOpen c))

/-- The container is destroyed and the file opened again. Built on V8Catalog.cpp:671-762. -/
def reopenCfu (L : Lib σ τ) (fuel : Nat) (c : Cfu) : Outcome (Option Cfu) := do
  match ← closeCfu L fuel c with
  | none => .ok none
  | some d => do
    match ← openCfu L fuel d with
    | some (some c) => halfCycle L fuel c
    | _ => .ok none

open Verif.Cfu.Spec in
/-- One action of the user. Built on V8Catalog.cpp:824-899. -/
def step (L : Lib σ τ) (fuel : Nat) (c : Cfu) : Act → Outcome (Option Cfu)
  | .put n b now => do
    match ← put plainCodec fuel c.k (Unicode.Spec.utf8Text n) b now with
    | none => .ok none
    | some k => .ok (some { c with k := k })
  | .remove n => do
    match ← remove fuel c.k (Unicode.Spec.utf8Text n) with
    | none => .ok none
    | some k => .ok (some { c with k := k })
  | .flush => flushCfu L fuel c
  | .half => halfCycle L fuel c
  | .reopen => reopenCfu L fuel c

open Verif.Cfu.Spec in
/-- A history; `ok none` if a loop did not end or the file was no container. Built on V8Catalog.cpp:190-206. -/
def session (L : Lib σ τ) (fuel : Nat) : Cfu → List Act → Outcome (Option Cfu)
  | c, [] => .ok (some c)
  | c, op :: ops => do
    match ← step L fuel c op with
    | some c => session L fuel c ops
    | none => .ok none

end Verif.Cfu
