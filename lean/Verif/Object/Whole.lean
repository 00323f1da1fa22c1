import Verif.Object.Data

/-!
# Replacing the whole contents of an object
(V8Object.cpp:756-850 from memory, 853-945 from a stream)

Both variants drop the cached contents, set the length and then copy page after page;
the stream variant takes the bytes of the stream from its beginning with `ReadBuffer`
(a stream delivers all its `GetSize()` bytes: `Verif.Stream`). Unlike the range variants
every page is handed out without being read, the last one too.
-/

namespace Verif.Object
open Verif

/-- The inner loop of format 8.0 over the entries of the table on page `tn`
(V8Object.cpp:790-800, 887-896): `j` is the index, `cl` the variable `curlen`, `rest` what
is left to copy (its length is the variable `_length`, which is not reduced by the last
copy). `count` is a signed word. Entry 1023 is outside the page, so that 1024 turns
are enough. -/
def wholeTab80 (e : Env) (tn : Nat) : Nat → Nat → Nat → Bytes → St → Outcome (St × Nat × Bytes)
  | 0, _, _, _, _ => .ub
  | fuel + 1, j, cl, rest, s => do
    let count ← peek s tn 0
    if count ≥ 2 ^ 31 ∨ j ≥ count then .ok (s, cl, rest)
    else do
      let cl := min 4096 rest.length
      let bn ← peek s tn (4 + 4 * j)
      let s ← touch e s bn false
      let s ← poke s bn 0 (rest.take cl)
      if rest.length ≤ cl then .ok (s, cl, rest)
      else wholeTab80 e tn fuel (j + 1) cl (rest.drop cl) s

/-- The outer loop of format 8.0 over the tables (V8Object.cpp:787-804, 884-900): `n` tables to
go, `i` the index of the next. -/
def wholeTabs80 (e : Env) (blocks : List Nat) : Nat → Nat → Nat → Bytes → St → Outcome St
  | 0, _, _, _, s => .ok s
  | n + 1, i, cl, rest, s => do
    let tn ← idx blocks i
    let _ ← getPage s.pages tn
    let (s, cl, rest) ← wholeTab80 e tn 1024 0 cl rest s
    if rest.length ≤ cl then .ok s
    else wholeTabs80 e blocks n (i + 1) cl rest s

/-- The loop of format 8.3.8 with two levels (V8Object.cpp:821-836, 917-931). -/
def wholeTwo (e : Env) (blocks : List Nat) : Nat → St → Nat → Nat → Nat → Bytes → Outcome St
  | 0, s, _, _, _, buf => if buf = [] then .ok s else .ub
  | fuel + 1, s, tn, j, oi, buf =>
    if buf = [] then .ok s
    else do
      let bn ← peek s tn (4 * j)
      let s ← touch e s bn false
      let s ← poke s bn 0 (buf.take (min e.P buf.length))
      let rest := buf.drop (min e.P buf.length)
      if rest ≠ [] ∧ j + 1 ≥ e.P / 4 then do
        let tn' ← idx blocks oi
        let _ ← getPage s.pages tn'
        wholeTwo e blocks fuel s tn' 0 (oi + 1) rest
      else wholeTwo e blocks fuel s tn (j + 1) oi rest

/-- The loop of format 8.3.8 with one level (V8Object.cpp:838-846, 933-939). -/
def wholeOne (e : Env) (blocks : List Nat) : Nat → St → Nat → Bytes → Outcome St
  | 0, s, _, buf => if buf = [] then .ok s else .ub
  | fuel + 1, s, k, buf =>
    if buf = [] then .ok s
    else do
      let bn ← idx blocks k
      let s ← touch e s bn false
      let s ← poke s bn 0 (buf.take (min e.P buf.length))
      wholeOne e blocks fuel s (k + 1) (buf.drop (min e.P buf.length))

/-- The copying part of both variants (V8Object.cpp:785-847, 882-941). The two-level branch of
format 8.3.8 fetches the first table before it looks at the length. -/
def putWhole (e : Env) (s : St) (o : Obj) (buf : Bytes) : Outcome (St × Obj) :=
  match o.kind with
  | .data80 => do
    let s ← wholeTabs80 e o.blocks o.numblocks 0 0 buf s
    writeVersion e s o
  | .data838 =>
    if o.fatlevel ≠ 0 then do
      let tn ← idx o.blocks 0
      let _ ← getPage s.pages tn
      let s ← wholeTwo e o.blocks buf.length s tn 0 1 buf
      writeVersion e s o
    else do
      let s ← wholeOne e o.blocks buf.length s 0 buf
      writeVersion e s o
  | _ => .throw

/-- `set_data(const void*, uint64_t)` and `set_data(TStream*)` (V8Object.cpp:756-850,
853-945). `none`: `set_len` does not return within `fuel` turns. -/
def setWhole (e : Env) (readonly : Bool) (fuel : Nat) (s : St) (o : Obj) (buf : Bytes) : Outcome (Option (St × Obj)) :=
  if readonly then .throw
  else match o.kind with
    | .free80 | .free838 => .throw
    | .data80 => do
      match ← setLen80 e fuel s { o with data := none } buf.length with
      | none => .ok none
      | some (s, o) => do
        let r ← putWhole e s o buf
        .ok (some r)
    | .data838 => do
      match ← setLen838 e fuel s { o with data := none } buf.length with
      | none => .ok none
      | some (s, o) => do
        let r ← putWhole e s o buf
        .ok (some r)

end Verif.Object
