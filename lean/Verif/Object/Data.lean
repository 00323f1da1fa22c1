import Verif.Object.Write

/-!
# Changing the contents, the length and the version of an object, and deleting it
(V8Object.cpp:645-1272, 1343-1388; Class_1CD.cpp:1760-1795)

`s : St` is the database, `o : Obj` the object in memory. A pointer to a page that the
code keeps while it fetches others stays valid: pages are dropped from the cache
only by `MemBlock::garbage`, which none of these functions calls.
-/

namespace Verif.Object
open Verif

/-! ## Versions -/

/-- `write_new_version` (V8Object.cpp:1373-1382). -/
def writeVersion (e : Env) (s : St) (o : Obj) : Outcome (St × Obj) :=
  if o.recorded then .ok (s, o)
  else do
    let off := if o.kind = .data80 ∨ o.kind = .free80 then 12 else 4
    let s ← touch e s o.block true
    let s ← poke s o.block off (le32 ((o.ver1 + 1) % 2 ^ 32) ++ le32 o.ver2)
    .ok (s, { o with recorded := true })

/-- `get_version_rec_and_increase` (V8Object.cpp:1343-1349): the version handed out, and
the object afterwards. -/
def versionRec (o : Obj) : (Nat × Nat) × Obj :=
  ((o.rec1, o.rec2), { o with rec2 := (o.rec2 + 1) % 2 ^ 32 })

/-- `get_version` and `get_current_version` (V8Object.cpp:1352-1356, 1385-1388). -/
def currentVersion (o : Obj) : Nat × Nat := (o.ver1, o.ver2)

/-! ## Writing a range -/

/-- The loop of the two-level formats (V8Object.cpp:684-702 with `per = 1023`, `hdr = 4`;
723-739 with `per = pagesize / 4`, `hdr = 0`). `tn` is the page of the current
allocation table, `j` the index in it, `oi` the next root index, `buf` what is left. -/
def putTab (e : Env) (P per hdr : Nat) (blocks : List Nat) :
    Nat → St → Nat → Nat → Nat → Nat → Nat → Bytes → Outcome St
  | 0, s, _, _, _, _, _, buf => if buf = [] then .ok s else .ub
  | fuel + 1, s, tn, j, oi, off, curlen, buf =>
    if buf = [] then .ok s
    else do
      let bn ← peek s tn (hdr + 4 * j)
      let s ← touch e s bn (curlen != P)
      let s ← poke s bn off (buf.take curlen)
      let rest := buf.drop curlen
      if rest ≠ [] ∧ j + 1 ≥ per then do
        let tn' ← idx blocks oi
        let _ ← getPage s.pages tn'
        putTab e P per hdr blocks fuel s tn' 0 (oi + 1) 0 (min P rest.length) rest
      else putTab e P per hdr blocks fuel s tn (j + 1) oi 0 (min P rest.length) rest

/-- The loop of the one-level format (V8Object.cpp:741-746). -/
def putDir (e : Env) (P : Nat) (blocks : List Nat) : Nat → St → Nat → Nat → Nat → Bytes → Outcome St
  | 0, s, _, _, _, buf => if buf = [] then .ok s else .ub
  | fuel + 1, s, k, off, curlen, buf =>
    if buf = [] then .ok s
    else do
      let bn ← idx blocks k
      let s ← touch e s bn (curlen != P)
      let s ← poke s bn off (buf.take curlen)
      putDir e P blocks fuel s (k + 1) 0 (min P (buf.length - curlen)) (buf.drop curlen)

/-- The two-level branch: find the table, then the loop. Serves the model of V8Object.cpp:676-750. -/
def writeTab (e : Env) (s : St) (P per hdr : Nat) (blocks : List Nat) (start : Nat) (buf : Bytes) : Outcome St := do
  let k := start / P
  let tn ← idx blocks (k / per)
  let _ ← getPage s.pages tn
  putTab e P per hdr blocks buf.length s tn (k % per) (k / per + 1) (start % P)
    (min (P - start % P) buf.length) buf

/-- The part of `set_data(const void*, uint64_t, uint64_t)` after the length has been
settled (V8Object.cpp:676-750). Also the stream variant (V8Object.cpp:974-1046), which
takes the same bytes from a stream with `ReadBuffer`. -/
def putRange (e : Env) (s : St) (o : Obj) (start : Nat) (buf : Bytes) : Outcome (St × Obj) :=
  match o.kind with
  | .data80 => do
    let s ← writeTab e s 4096 1023 4 o.blocks start buf
    writeVersion e s o
  | .data838 => do
    let s ←
      if o.fatlevel ≠ 0 then writeTab e s e.P (e.P / 4) 0 o.blocks start buf
      else putDir e e.P o.blocks buf.length s (start / e.P) (start % e.P) (min (e.P - start % e.P) buf.length) buf
    writeVersion e s o
  | _ => .throw

/-! ## Changing the length -/

/-- `ot = get_free_block()` …: a new allocation table (V8Object.cpp:1105-1108). -/
def newTable (e : Env) (s : St) (h nb : Nat) : Outcome (St × Nat) := do
  let (bl, s) ← getFree e s
  let s ← poke s h (24 + 4 * nb) (le32 bl)
  let s ← touch e s bl false
  let s ← poke s bl 0 (le32 0)
  .ok (s, bl)

/-- A new data page entered in table `t` (V8Object.cpp:1110-1113). -/
def newPage (e : Env) (s : St) (t i : Nat) : Outcome St := do
  let (bl, s) ← getFree e s
  let s ← touch e s bl false
  let s ← poke s t (4 + 4 * i) (le32 bl)
  poke s t 0 (le32 (i + 1))

/-- The growing loop of format 8.0 (V8Object.cpp:1100-1114): `n` pages to go, `cur` pages
so far, `nb` tables so far, `ot` the page of the last table (`none`: the pointer is
uninitialised). -/
def grow80 (e : Env) (h : Nat) : Nat → Nat → Nat → Option Nat → St → Outcome (St × Nat)
  | 0, _, nb, _, s => .ok (s, nb)
  | n + 1, cur, nb, ot, s =>
    if cur % 1023 = 0 then do
      let (s, t) ← newTable e s h nb
      let s ← newPage e s t 0
      grow80 e h n (cur + 1) (nb + 1) (some t) s
    else
      match ot with
      | none => .ub
      | some t => do
        let s ← newPage e s t (cur % 1023)
        grow80 e h n (cur + 1) nb ot s

/-- The end of one turn of the shrinking loop: an empty table is released
(V8Object.cpp:1126-1131). -/
def dropTable (e : Env) (s : St) (h nb t : Nat) : Outcome (St × Nat × Nat) :=
  if nb = 0 then .ub -- `b->blocks[4294967295]`
  else do
    let tn ← peek s h (24 + 4 * (nb - 1))
    let s ← setFree e s tn
    let s ← poke s h (24 + 4 * (nb - 1)) (le32 0)
    if nb - 1 ≠ 0 then do
      let t' ← peek s h (24 + 4 * (nb - 2))
      let s ← touch e s t' true
      .ok (s, nb - 1, t')
    else .ok (s, 0, t)

/-- The shrinking loop of format 8.0 (V8Object.cpp:1120-1132) in 32-bit arithmetic: `cur`
is the page to be released, `t` the page of its table. `none`: still running. -/
def shrink80 (e : Env) (h ndb : Nat) : Nat → Nat → Nat → Nat → St → Outcome (Option (St × Nat))
  | 0, _, _, _, _ => .ok none
  | fuel + 1, cur, nb, t, s =>
    if cur < ndb then .ok (some (s, nb))
    else do
      let i := cur % 1023
      let p ← peek s t (4 + 4 * i)
      let s ← setFree e s p
      let s ← poke s t (4 + 4 * i) (le32 0)
      let s ← poke s t 0 (le32 i)
      if i = 0 then do
        let (s, nb, t) ← dropTable e s h nb t
        shrink80 e h ndb fuel ((cur + 2 ^ 32 - 1) % 2 ^ 32) nb t s
      else shrink80 e h ndb fuel ((cur + 2 ^ 32 - 1) % 2 ^ 32) nb t s

/-- The loops of `set_len` for format 8.0 (V8Object.cpp:1095-1134). -/
def resize80 (e : Env) (fuel : Nat) (s : St) (o : Obj) (ndb cur : Nat) : Outcome (Option (St × Nat)) :=
  if ndb > cur then do
    if o.numblocks ≠ 0 then do
      let t ← peek s o.block (24 + 4 * (o.numblocks - 1))
      let s ← touch e s t true
      let r ← grow80 e o.block (ndb - cur) cur o.numblocks (some t) s
      .ok (some r)
    else do
      let r ← grow80 e o.block (ndb - cur) cur 0 none s
      .ok (some r)
  else if ndb < cur then
    if o.numblocks = 0 then .ub
    else do
      let t ← peek s o.block (24 + 4 * (o.numblocks - 1))
      let s ← touch e s t true
      shrink80 e o.block ndb fuel (cur - 1) o.numblocks t s
  else .ok (some (s, o.numblocks))

/-- The refresh of the root list at the end of `set_len` (V8Object.cpp:1136-1141,
1263-1268): four times as many words as the vector holds are copied into it. -/
def refreshRoot (e : Env) (s : St) (o : Obj) (nb size : Nat) : Outcome (List Nat) :=
  if nb = 0 then .ok (List.replicate size 0)
  else do
    let ws ← peekMany s o.block 24 (nb * 4)
    if nb * 4 - size > e.slack then .ub
    else .ok (ws.take size ++ List.replicate (size - nb * 4) 0)

/-- `set_len` for format 8.0 (V8Object.cpp:1053-1144); `newLen` below 2^32. -/
def setLen80 (e : Env) (fuel : Nat) (s : St) (o : Obj) (newLen : Nat) : Outcome (Option (St × Obj)) :=
  if o.len = newLen then .ok (some (s, o))
  else do
    let s ← touch e s o.block true
    let s ← poke s o.block 8 (le32 newLen)
    let ndb := (newLen + 4095) / 4096
    let size := (ndb + 1022) / 1023
    match ← resize80 e fuel s o ndb ((o.len + 4095) / 4096) with
    | none => .ok none
    | some (s, nb) => do
      let blocks ← refreshRoot e s o nb size
      let (s, o) ← writeVersion e s { o with len := newLen, numblocks := nb, blocks := blocks, data := none }
      .ok (some (s, o))

/-- `set_data(const void*, uint64_t, uint64_t)` for format 8.0 (V8Object.cpp:645-705). -/
def setData80 (e : Env) (readonly : Bool) (fuel : Nat) (s : St) (o : Obj) (start : Nat) (buf : Bytes) :
    Outcome (Option (St × Obj)) :=
  if readonly then .throw
  else if o.kind ≠ .data80 then .throw
  else if start + buf.length > o.len then do
    match ← setLen80 e fuel s { o with data := none } (start + buf.length) with
    | none => .ok none
    | some (s, o) => do
      let r ← putRange e s o start buf
      .ok (some r)
  else do
    let r ← putRange e s { o with data := none } start buf
    .ok (some r)

/-! ### Format 8.3.8 -/

/-- `get_free_block` and handing the page out without reading it
(V8Object.cpp:1205-1206, 1214-1215). -/
def freshPage (e : Env) (s : St) : Outcome (Nat × St) := do
  let (bl, s) ← getFree e s
  let s ← touch e s bl false
  .ok (bl, s)

/-- The growing loop with two levels (V8Object.cpp:1196-1208): `t` is the page of the
current table. -/
def grow838two (e : Env) (h per : Nat) : Nat → Nat → Nat → Nat → St → Outcome (St × Nat)
  | 0, _, nb, _, s => .ok (s, nb)
  | n + 1, cur, nb, t, s => do
    if cur % per = 0 then do
      let (t', s) ← getFree e s
      let s ← poke s h (24 + 4 * nb) (le32 t')
      let s ← touch e s t' false
      let (bl, s) ← freshPage e s
      let s ← poke s t' (4 * (cur % per)) (le32 bl)
      grow838two e h per n (cur + 1) (nb + 1) t' s
    else do
      let (bl, s) ← freshPage e s
      let s ← poke s t (4 * (cur % per)) (le32 bl)
      grow838two e h per n (cur + 1) nb t s

/-- The growing loop with one level (V8Object.cpp:1212-1217). -/
def grow838one (e : Env) (h : Nat) : Nat → Nat → St → Outcome St
  | 0, _, s => .ok s
  | n + 1, cur, s => do
    let (bl, s) ← freshPage e s
    let s ← poke s h (24 + 4 * cur) (le32 bl)
    grow838one e h n (cur + 1) s

/-- The shrinking loop with one level (V8Object.cpp:1241-1245); 32-bit arithmetic. -/
def shrink838one (e : Env) (h ndb : Nat) : Nat → Nat → St → Outcome (Option St)
  | 0, _, _ => .ok none
  | fuel + 1, cur, s =>
    if cur < ndb then .ok (some s)
    else do
      let p ← peek s h (24 + 4 * cur)
      let s ← setFree e s p
      let s ← poke s h (24 + 4 * cur) (le32 0)
      shrink838one e h ndb fuel ((cur + 2 ^ 32 - 1) % 2 ^ 32) s

/-- The loops of `set_len` for format 8.3.8 (V8Object.cpp:1179-1261): the database,
`numblocks` and `fatlevel` afterwards. -/
def resize838 (e : Env) (fuel : Nat) (s : St) (o : Obj) (ndb cur newfat : Nat) :
    Outcome (Option (St × Nat × Nat)) :=
  let per := e.P / 4
  if ndb > cur then
    if o.fatlevel = 0 ∧ newfat ≠ 0 then do
      let (bl, s) ← freshPage e s
      let ws ← peekMany s o.block 24 o.numblocks
      let s ← poke s bl 0 (ws.flatMap le32)
      let s ← poke s o.block 2 [UInt8.ofNat newfat, 0]
      let s ← poke s o.block 24 (le32 bl)
      let (s, nb) ← grow838two e o.block per (ndb - cur) cur 1 bl s
      .ok (some (s, nb, newfat))
    else if o.numblocks = 0 then .ub -- `bd->blocks[4294967295]`
    else do
      let t ← peek s o.block (24 + 4 * (o.numblocks - 1))
      let s ← touch e s t true
      if o.fatlevel ≠ 0 then do
        let (s, nb) ← grow838two e o.block per (ndb - cur) cur o.numblocks t s
        .ok (some (s, nb, o.fatlevel))
      else do
        let s ← grow838one e o.block (ndb - cur) cur s
        .ok (some (s, o.numblocks, 0)) -- `numblocks` keeps its old value
  else if ndb < cur then
    if o.fatlevel ≠ 0 then .ub -- reads `b`, which no path has set
    else do
      match ← shrink838one e o.block ndb fuel (cur - 1) s with
      | none => .ok none
      | some s => .ok (some (s, ndb, 0))
  else .ok (some (s, o.numblocks, o.fatlevel))

/-- The largest length accepted (V8Object.cpp:1147-1148): the product is computed in 32 bits. -/
def maxLen838 (P : Nat) : Nat := P * (P / 4) * (P / 4 - 6) % 2 ^ 32

/-- `set_len` for format 8.3.8 (V8Object.cpp:1053-1078, 1145-1271). -/
def setLen838 (e : Env) (fuel : Nat) (s : St) (o : Obj) (newLen : Nat) : Outcome (Option (St × Obj)) :=
  if o.len = newLen then .ok (some (s, o))
  else if newLen > maxLen838 e.P then .throw
  else do
    let s ← touch e s o.block true
    let s ← poke s o.block 16 (le32 newLen ++ le32 (newLen / 2 ^ 32))
    let ndb := (newLen + e.P - 1) / e.P
    let newfat := if ndb > e.P / 4 - 6 then 1 else 0
    let size := if ndb > e.P / 4 - 6 then (ndb + e.P / 4 - 1) / (e.P / 4) else ndb
    match ← resize838 e fuel s o ndb ((o.len + e.P - 1) / e.P) newfat with
    | none => .ok none
    | some (s, nb, fat) => do
      let blocks ← refreshRoot e s o nb size
      let (s, o) ← writeVersion e s
        { o with len := newLen, numblocks := nb, fatlevel := fat, blocks := blocks, data := none }
      .ok (some (s, o))

/-- `set_data(const void*, uint64_t, uint64_t)` for format 8.3.8 (V8Object.cpp:645-676,
706-750). -/
def setData838 (e : Env) (readonly : Bool) (fuel : Nat) (s : St) (o : Obj) (start : Nat) (buf : Bytes) :
    Outcome (Option (St × Obj)) :=
  if readonly then .throw
  else if o.kind ≠ .data838 then .throw
  else if start + buf.length > o.len then do
    match ← setLen838 e fuel s { o with data := none } (start + buf.length) with
    | none => .ok none
    | some (s, o) => do
      let r ← putRange e s o start buf
      .ok (some r)
  else do
    let r ← putRange e s { o with data := none } start buf
    .ok (some r)

/-! ## Deleting an object -/

/-- The inner loop (Class_1CD.cpp:1777-1779): entries `j … j + n - 1` of the table on page
`tn`. `σ` is the state seen by `free` (`set_block_as_free`); `view` its pages. -/
def freeEntries {σ : Type} (view : σ → St) (free : σ → Nat → Outcome σ) (tn : Nat) : Nat → Nat → σ → Outcome σ
  | 0, _, s => .ok s
  | n + 1, j, s => do
    let p ← peek (view s) tn (4 + 4 * j)
    let s ← free s p
    freeEntries view free tn n (j + 1) s

/-- The first loop (Class_1CD.cpp:1775-1780). Simplification: the number of entries is read
once per table, not again in each turn; the table page is not changed by the loop
unless it is itself one of the pages released. -/
def freeTables {σ : Type} (view : σ → St) (free : σ → Nat → Outcome σ) : List Nat → σ → Outcome σ
  | [], s => .ok s
  | tn :: ts, s => do
    let _ ← getPage (view s).pages tn
    let n ← peek (view s) tn 0
    let s ← freeEntries view free tn n 0 s
    freeTables view free ts s

/-- The other two loops (Class_1CD.cpp:1782-1788). -/
def freeAll {σ : Type} (free : σ → Nat → Outcome σ) : List Nat → σ → Outcome σ
  | [], s => .ok s
  | p :: ps, s => do
    let s ← free s p
    freeAll free ps s

/-- `T_1CD::delete_object` (Class_1CD.cpp:1760-1795). -/
def deleteObject {σ : Type} (view : σ → St) (free : σ → Nat → Outcome σ) (o : Obj) (s : σ) : Outcome σ :=
  if o.block = 1 ∨ o.block = 2 then .throw
  else do
    let s ← freeTables view free (o.blocks.take o.numblocks) s
    let s ← freeAll free (o.blocks.take o.numblocks) s
    freeAll free (List.replicate o.numblocks o.block) s

end Verif.Object
