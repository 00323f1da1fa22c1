import Verif.Index.Edit
import Verif.Blob.Model

/-! # Changing an index in its file

Models `Index::delete_index_record` and `Index::write_index_record`
(src/tool1cd/Index.cpp:635-785, 799-1185): from the root page down through the branch pages
to a leaf, and back. What happens to the leaf itself is `leafDelete` and `leafWrite`. -/

namespace Verif.Index
open Verif Blob

/-- What the functions know of the index and of the machine. `fwd`: whether `memcpy` to a lower
address that overlaps its source moves the bytes in order; the C++ standard leaves this undefined.
`wreck`: what is in a page after the packer gave up on it; nothing is assumed of it. Serves the model of Index.cpp:693, 697, 752, 756. -/
structure Conf where
  P : Params
  v838 : Bool
  fwd : Bool
  wreck : Bytes → Bytes

/-- `LAST_PAGE` (Index.cpp:31). -/
def lastPage : Nat := 4294967295

/-- Reading bytes of a page. Serves the model of Index.cpp:728-731, 1018-1035. -/
def peek (p : Bytes) (off n : Nat) : Outcome Bytes :=
  if off + n ≤ p.length then .ok ((p.drop off).take n) else .ub

/-- Writing bytes of a page. Serves the model of Index.cpp:741-743. -/
def poke (p : Bytes) (off : Nat) (b : Bytes) : Outcome Bytes :=
  if off + b.length ≤ p.length then .ok (p.take off ++ b ++ p.drop (off + b.length)) else .ub

/-- The byte offset that a link plus `d` stands for (Index.cpp:693, 697, 752, 756), in 32 bits. -/
def Conf.link (c : Conf) (n d : Nat) : Nat := ((if c.v838 then n * c.P.pagesize else n) + d) % 2 ^ 32

/-- The byte offset of the page below an entry (Index.cpp:735-736, 1043-1044). -/
def Conf.child (c : Conf) (n : Nat) : Nat := if c.v838 then n * c.P.pagesize else n

/-- How a page at a byte offset is called (Index.cpp:984, 986, 1091, 1144). -/
def Conf.name (c : Conf) (off : Nat) : Nat := if c.v838 then off / c.P.pagesize else off

/-- `delta` of a branch page (Index.cpp:727, 1014): a key, a record number and a page. -/
def Conf.step (c : Conf) : Nat := c.P.len + 8

/-- Where entry `i` of a branch page is (Index.cpp:726, 1013). -/
def Conf.slot (c : Conf) (i : Nat) : Nat := 12 + i * c.step

/-- `for(i = 0; i < n; i++)` of a branch page (Index.cpp:728-731, 1018-1035): the first entry whose key is
not less than this one, and whether it is equal. -/
def seek (c : Conf) (page key : Bytes) : Nat → Nat → Outcome (Option (Nat × Bool))
  | 0, _ => .ok none
  | m + 1, i => do
    let k ← peek page (c.slot i) c.P.len
    if key = k then .ok (some (i, true))
    else if lessB key k = true then .ok (some (i, false))
    else seek c page key m (i + 1)

/-- A page without entries is taken out of its row and put in front of the list of free pages
(Index.cpp:690-705, 749-762). The result is the file and what the page will be. -/
def freePage (c : Conf) (f page : Bytes) (block : Nat) : Outcome (Bytes × Bytes) := do
  let prev ← rd page 4 4
  let next ← rd page 8 4
  let f := if prev = lastPage then f else setData f (c.link prev 8) (le 4 next)
  let f := if next = lastPage then f else setData f (c.link next 4) (le 4 prev)
  let k ← getData f 0 4
  .ok (setData f 0 (le 4 (block / c.P.pagesize)), k ++ List.replicate (c.P.pagesize - 4) 0)

/-! ## Removing -/

/-- What the page above is told: nothing; that the page has no entries left; or that its last
entry is now another. Serves the model of Index.cpp:739-748. -/
inductive Gone
  | same
  | emptied
  | newLast (e : Entry)
  deriving DecidableEq, Repr

/-- Taking entry `i` of `n` out of a branch page (Index.cpp:741-743). -/
def cutRef (c : Conf) (page : Bytes) (n i : Nat) : Outcome Bytes := do
  let page ← poke page 2 (le 2 (n - 1))
  if n - 1 > i then
    if c.fwd = false ∧ n - 1 - i ≥ 2 then .ub
    else do
      let b ← peek page (c.slot (i + 1)) ((n - 1 - i) * c.step)
      let page ← poke page (c.slot i) b
      poke page (c.slot (n - 1)) (List.replicate c.step 0)
  else poke page (c.slot (n - 1)) (List.replicate c.step 0)

/-- Giving entry `i` of a branch page another key and record number (Index.cpp:747-748, 1049-1050). -/
def setRef (c : Conf) (page : Bytes) (i : Nat) (e : Entry) : Outcome Bytes := do
  let page ← poke page (c.slot i) e.key
  poke page (c.slot i + c.P.len) (le 4 e.num).reverse

/-- What a removal further down does to entry `i` of `n` (Index.cpp:739-748). -/
def refDeleted (c : Conf) (page : Bytes) (n i : Nat) : Gone → Outcome Bytes
  | .same => .ok page
  | .emptied => cutRef c page n i
  | .newLast e => setRef c page i e

/-- The last entry of a branch page (Index.cpp:766-768). -/
def lastRef (c : Conf) (page : Bytes) (n : Nat) : Outcome Entry := do
  let k ← peek page (c.slot (n - 1)) c.P.len
  let b ← peek page (c.slot (n - 1) + c.P.len) 4
  .ok ⟨ofLe b.reverse, k⟩

/-- The rest of a branch page's turn after the removal further down (Index.cpp:739-772). `eq`: the key is
that of entry `i`. -/
def deleteUp (c : Conf) (f : Bytes) (block : Nat) (page : Bytes) (n i : Nat) (eq : Bool) (g : Gone) : Outcome (Bytes × Gone) := do
  let page ← refDeleted c page n i g
  let n' := if g = .emptied then n - 1 else n
  if n' = 0 then do
    let r ← freePage c f page block
    .ok (setData r.1 block r.2, .emptied)
  else if i = n - 1 ∧ eq = true then do
    let e ← lastRef c page n'
    .ok (setData f block page, .newLast e)
  else if g = .same then .ok (f, .same)
  else .ok (setData f block page, .same)

/-- The leaf's turn (Index.cpp:667-719). -/
def deleteLeaf (c : Conf) (f : Bytes) (block : Nat) (page : Bytes) (num : Nat) (key : Bytes) : Outcome (Bytes × Gone) := do
  let r ← leafDelete c.P page num key
  match r with
  | .absent => .ok (f, .same)
  | .emptied => do
    let r ← freePage c f page block
    .ok (setData r.1 block r.2, .emptied)
  | .kept p last => .ok (setData f block (p.getD (c.wreck page)),
      match last with
      | none => .same
      | some e => .newLast e)

/-- `delete_index_record` (Index.cpp:645-785) at a page given by its byte offset: the file and what the
page above is told. `none`: not finished after going down that many pages. Keys of no bytes
are left out: their entries are then read through a null pointer. -/
def deleteAt (c : Conf) (num : Nat) (key : Bytes) : Nat → Bytes → Nat → Outcome (Option (Bytes × Gone))
  | 0, _, _ => .ok none
  | fuel + 1, f, block => do
    let page ← getData f block c.P.pagesize
    let flags ← rd page 0 1
    if flags &&& 2 ≠ 0 then do
      let r ← deleteLeaf c f block page num key
      .ok (some r)
    else do
      let n ← rd page 2 2
      let s ← seek c page key n 0
      match s with
      | none => .ok (some (f, .same))
      | some (i, eq) => do
        let ch ← peek page (c.slot i + c.P.len + 4) 4
        let r ← deleteAt c num key fuel f (c.child (ofLe ch.reverse))
        match r with
        | none => .ok none
        | some (f, g) => do
          let r ← deleteUp c f block page n i eq g
          .ok (some r)

/-- `delete_index_record(index_buf, phys_numrec)` (Index.cpp:635-642): what the root reports is not
looked at. -/
def deleteEntry (c : Conf) (fuel : Nat) (f : Bytes) (root num : Nat) (key : Bytes) : Outcome (Option Bytes) := do
  let r ← deleteAt c num key fuel f root
  .ok (r.map (·.1))

/-! ## Adding -/

/-- `result` (Index.cpp:865-868). -/
inductive Placed
  | done
  | newLast (e : Entry)
  | split (last1 last2 : Entry) (block2 : Nat)
  deriving DecidableEq, Repr

/-- A page for new contents (Index.cpp:820-827, 972-979): the first free one, or the end of the file. -/
def freshPage (c : Conf) (f : Bytes) : Outcome (Nat × Bytes) := do
  let b ← getData f 0 4
  if ofLe b = 0 then .ok (f.length, f)
  else do
    let off := ofLe b * c.P.pagesize % 2 ^ 32
    let k ← getData f off 4
    .ok (off, setData f 0 k)

/-- The leaf's turn (Index.cpp:911-1003). `junk` is the fresh page 2. -/
def writeLeaf (c : Conf) (junk f : Bytes) (block : Nat) (page : Bytes) (num : Nat) (key : Bytes) : Outcome (Bytes × Placed) := do
  let flags ← rd page 0 2
  let prev ← rd page 4 4
  let next ← rd page 8 4
  let r ← leafWrite c.P page junk num key
  match r with
  | .fits p last => .ok (setData f block p,
      match last with
      | none => .done
      | some e => .newLast e)
  | .split p1 p2 l1 l2 => do
    let b ← freshPage c f
    let q := linkHalves flags prev next (c.name block) (c.name b.1) (p1.getD (c.wreck page)) (p2.getD (c.wreck junk))
    .ok (setData (setData b.2 b.1 q.2) block q.1, .split l1 l2 b.1)

/-- Entry `i` of a branch page with the page below it (Index.cpp:1144-1157). -/
def putRef (c : Conf) (page : Bytes) (i : Nat) (e : Entry) (block : Nat) : Outcome Bytes := do
  let page ← poke page (c.slot i) e.key
  let page ← poke page (c.slot i + c.P.len) (le 4 e.num).reverse
  poke page (c.slot i + c.P.len + 4) (le 4 (c.name block)).reverse

/-- The entries after entry `i` of `n` are moved (Index.cpp:1129-1135): by one place towards the front, not
towards the end. -/
def moveRefs (c : Conf) (page : Bytes) (n i : Nat) : Outcome Bytes :=
  if n - 1 - i = 0 then .ok page
  else if c.fwd = false ∧ n - 1 - i ≥ 2 then .ub
  else do
    let b ← peek page (c.slot (i + 2)) ((n - 1 - i) * c.step)
    poke page (c.slot (i + 1)) b

/-- Two entries in the place of entry `i` of `n` (Index.cpp:1129-1158). The number in the page's header is
not changed. -/
def doubleRef (c : Conf) (page : Bytes) (n i : Nat) (e1 e2 : Entry) (block1 block2 : Nat) : Outcome Bytes := do
  let page ← moveRefs c page n i
  let page ← putRef c page i e1 block1
  putRef c page (i + 1) e2 block2

/-- The rest of a branch page's turn after the addition further down (Index.cpp:1047-1181). When one more
entry has no room, entries are collected in a buffer that is too small for them by one (1063,
1065, 1101-1105). -/
def writeUp (c : Conf) (f : Bytes) (block : Nat) (page : Bytes) (n i block1 : Nat) : Placed → Outcome (Bytes × Placed)
  | .done => .ok (f, .done)
  | .newLast e => do
    let page ← setRef c page i e
    .ok (setData f block page, if i = n - 1 then .newLast e else .done)
  | .split e1 e2 block2 =>
    if n + 1 > (c.P.pagesize - 12) / c.step then .ub
    else do
      let page ← doubleRef c page n i e1 e2 block1 block2
      .ok (setData f block page, if i = n - 1 then .newLast e2 else .done)

/-- Which entry of a branch page to follow (Index.cpp:1017-1040): the first not less than the key, or the
last. In a primary index an equal key is refused. On a page without entries the pointer moves in
front of the first entry, which with keys of more than four bytes is outside of the page; with
shorter keys it stays inside, and this is not followed but counted as undefined as well. -/
def follow (c : Conf) (page key : Bytes) (n : Nat) : Outcome Nat := do
  let s ← seek c page key n 0
  match s with
  | none => if n = 0 then .ub else .ok (n - 1)
  | some (i, eq) => if eq = true ∧ c.P.primary = true then .throw else .ok i

/-- `write_index_record` (Index.cpp:863-1185) at a page given by its byte offset. -/
def writeAt (c : Conf) (junk : Bytes) (num : Nat) (key : Bytes) : Nat → Bytes → Nat → Outcome (Option (Bytes × Placed))
  | 0, _, _ => .ok none
  | fuel + 1, f, block => do
    let page ← getData f block c.P.pagesize
    let flags ← rd page 0 2
    if flags &&& 2 ≠ 0 then do
      let r ← writeLeaf c junk f block page num key
      .ok (some r)
    else do
      let n ← rd page 2 2
      let i ← follow c page key n
      let ch ← peek page (c.slot i + c.P.len + 4) 4
      let r ← writeAt c junk num key fuel f (c.child (ofLe ch.reverse))
      match r with
      | none => .ok none
      | some (f, g) => do
        let r ← writeUp c f block page n i (c.child (ofLe ch.reverse)) g
        .ok (some r)

/-- `write_index_record(phys_numrecord, index_buf)` (Index.cpp:799-860): the file and the offset of the
root page. `start` is where the index has its root page's number. -/
def writeEntry (c : Conf) (junk : Bytes) (fuel start : Nat) (f : Bytes) (root num : Nat) (key : Bytes) : Outcome (Option (Bytes × Nat)) := do
  let r ← writeAt c junk num key fuel f root
  match r with
  | none => .ok none
  | some (f, .split l1 l2 b2) => do
    let b ← freshPage c f
    let f := setData b.2 b.1 (newRoot c.v838 c.P.pagesize l1 l2 root b2)
    .ok (some (setData f start (newRootWord b.1), b.1))
  | some (f, _) => .ok (some (f, root))

end Verif.Index
