import Verif.Object.Read

/-!
# Changing objects: pages handed out for writing, the free-page list
(Class_1CD.cpp:88-111, V8Object.cpp:1274-1340)

Pages are a plain list as in `Verif.Object.Base`. A page handed out for writing
*without* its old contents shows the old bytes if it happens to be cached and
zeros otherwise (`Verif.Cache.put_weak`); which one is decided by an oracle `ora`
that theorems quantify over. Pointers into pages are page numbers; a store
through a pointer changes the page at that moment.
-/

namespace Verif.Object
open Verif

/-- Pages of the database, the free-page file object, and a count of oracle questions. Serves the model of Class_1CD.cpp:88-111. -/
structure St where
  pages : List Bytes
  fr : Obj
  tick : Nat
  deriving DecidableEq, Repr

/-- Constants of one execution: page size, the oracle, and how many 32-bit words past
the end of a `std::vector` may be overwritten without consequences (0 for a
strict reading of the language). Serves the model of Class_1CD.cpp:88-111. -/
structure Env where
  P : Nat
  ora : Nat → Bool
  slack : Nat

/-- 32-bit little-endian bytes. Serves the model of Class_1CD.cpp:88-111. -/
def le32 (n : Nat) : Bytes :=
  [UInt8.ofNat n, UInt8.ofNat (n / 256), UInt8.ofNat (n / 65536), UInt8.ofNat (n / 16777216)]

/-- Overwrite part of a page. Serves the model of Class_1CD.cpp:88-111. -/
def splice (p : Bytes) (off : Nat) (b : Bytes) : Bytes := p.take off ++ b ++ p.drop (off + b.length)

/-- `T_1CD::get_block_for_write` (Class_1CD.cpp:88-111): the page exists afterwards.
Appending with `read = true` yields uninitialised memory (`Cache.append_with_read_is_ub`). -/
def touch (e : Env) (s : St) (n : Nat) (read : Bool) : Outcome St :=
  if n > s.pages.length then .throw
  else if n = s.pages.length then
    if read then .ub
    else .ok { s with pages := s.pages.modify 0 (fun p => splice p 12 (le32 (n + 1))) ++ [List.replicate e.P 0] }
  else if read then .ok s
  else .ok { s with
    pages := if e.ora s.tick then s.pages else s.pages.set n (List.replicate e.P 0)
    tick := s.tick + 1 }

/-- A store of bytes through a pointer into page `n`; outside the page undefined. Serves the model of V8Object.cpp:1311-1340. -/
def poke (s : St) (n off : Nat) (b : Bytes) : Outcome St :=
  match s.pages[n]? with
  | none => .ub
  | some p => if off + b.length ≤ p.length then .ok { s with pages := s.pages.set n (splice p off b) } else .ub

/-- A 32-bit load through a pointer into page `n`. Serves the model of V8Object.cpp:1311-1340. -/
def peek (s : St) (n off : Nat) : Outcome Nat :=
  match s.pages[n]? with
  | none => .ub
  | some p => rd32 p off

/-- Load of `n` consecutive 32-bit words. Serves the model of V8Object.cpp:1275-1308. -/
def peekMany (s : St) (pn : Nat) (off n : Nat) : Outcome (List Nat) :=
  match s.pages[pn]? with
  | none => .ub
  | some p => copyRoot p off n

/-- `V8Object::get_free_block` (V8Object.cpp:1311-1340) on the free-page object. -/
def getFree (e : Env) (s : St) : Outcome (Nat × St) :=
  if s.fr.block ≠ 1 then .throw
  else if s.fr.len ≠ 0 then do
    let len := s.fr.len - 1
    let bn ← idx s.fr.blocks (len / 1024)
    let s ← touch e s bn true
    let k ← peek s bn (4 * (len % 1024))
    let s ← poke s bn (4 * (len % 1024)) (le32 0)
    let s ← touch e s 1 true
    let s ← poke s 1 8 (le32 len)
    .ok (k, { s with fr := { s.fr with len := len } })
  else do
    let i := s.pages.length
    let s ← touch e s i false
    .ok (i, s)

/-- `V8Object::set_block_as_free` (V8Object.cpp:1275-1308). The copy at the end takes
four times as many words as the vector holds: the words after `real_numblocks + 1`
are written past its end. -/
def setFree (e : Env) (s : St) (b : Nat) : Outcome St :=
  if s.fr.block ≠ 1 then .throw
  else do
    let j := s.fr.len / 1024
    let i := s.fr.len % 1024
    let s ← touch e s 1 true
    if s.fr.realNumblocks > j then do
      let s ← poke s 1 8 (le32 (s.fr.len + 1))
      let bn ← idx s.fr.blocks j
      let s ← touch e s bn true
      let s ← poke s bn (4 * i) (le32 b)
      .ok { s with fr := { s.fr with len := s.fr.len + 1, numblocks := max s.fr.numblocks (j + 1) } }
    else do
      let s ← poke s 1 (24 + 4 * s.fr.realNumblocks) (le32 b)
      let real := s.fr.realNumblocks + 1
      let ws ← peekMany s 1 24 (real * 4)
      if real * 3 > e.slack then .ub
      else .ok { s with fr := { s.fr with realNumblocks := real, blocks := ws.take real } }

end Verif.Object
