import Verif.Basic

/-! # Index leaf pages

Models `Index::pack_leafpage` and `Index::unpack_leafpage` (src/tool1cd/Index.cpp:399-602).
A leaf page keeps for each entry a record number and a key of fixed length; of the key
only the bytes between the prefix shared with the previous key and the trailing zeros are
stored, backward from the end of the page. -/

namespace Verif.Index
open Verif

/-- One entry of an unpacked page: `UnpackIndexRecord` (Index.h:46-51). -/
structure Entry where
  num : Nat
  key : Bytes
  deriving DecidableEq, Repr

/-- The low `k` bytes of a number, low byte first. Serves the model of Index.cpp:471-602. -/
def le : Nat → Nat → Bytes
  | 0, _ => []
  | k + 1, n => UInt8.ofNat n :: le k (n / 256)

/-- The number with these bytes. Serves the model of Index.cpp:117-118. -/
def ofLe : Bytes → Nat
  | [] => 0
  | b :: bs => b.toNat + 256 * ofLe bs

/-- Reading `k` bytes of the page as a number. Serves the model of Index.cpp:445-465. -/
def rd (p : Bytes) (off k : Nat) : Outcome Nat :=
  if off + k ≤ p.length then .ok (ofLe ((p.drop off).take k)) else .ub

/-- `for(i = n, b = 0; i; i >>= 1, b++)` of an `uint32_t` (Index.cpp:498, 558). -/
def bitLoop : Nat → Nat → Nat
  | 0, _ => 0
  | f + 1, n => if n = 0 then 0 else bitLoop f (n / 2) + 1

/-- Serves the model of Index.cpp:558-562. -/
def bits (n : Nat) : Nat := bitLoop 32 n

/-- `for(i = 0, mask = 0; i < n; i++, mask = (mask << 1) | 1)` of an `uint32_t`
(Index.cpp:573-575). -/
def mask : Nat → Nat
  | 0 => 0
  | k + 1 => ((mask k <<< 1) ||| 1) % 2 ^ 32

/-- Number of leading bytes two keys share (Index.cpp:518). -/
def common : Bytes → Bytes → Nat
  | a :: as, b :: bs => if a = b then common as bs + 1 else 0
  | _, _ => 0

/-- Serves the model of Index.cpp:523-524. -/
def zeros : Bytes → Nat
  | [] => 0
  | b :: bs => if b = 0 then zeros bs + 1 else 0

/-- Number of zero bytes at the end of a key (Index.cpp:523-524). -/
def trailing (k : Bytes) : Nat := zeros k.reverse

/-- `_pack_index_record` (Index.h:85-90). -/
structure Mid where
  num : Nat
  left : Nat
  right : Nat
  deriving DecidableEq, Repr

/-- `left` (Index.cpp:516-521): the first key shares nothing. -/
def leftOf (prev : Option Bytes) (key : Bytes) : Nat :=
  match prev with
  | none => 0
  | some p => common key p

/-- `right` (Index.cpp:523-537), when nothing is thrown. -/
def rightOf (len left : Nat) (key : Bytes) : Nat :=
  if left + trailing key > len then len - left else trailing key

/-- The first loop of `pack_leafpage` (Index.cpp:511-557). `prev` is the key before, `rest`
what follows the entries in the caller's buffer, `tail` the key bytes stored so far (the
end of the page), `plen` is `pack_index_len`. The result `none` is `return false`.
When a key equals the one before, the byte after it is read (the index is compared with
the length only after the bytes, line 518); after the last entry this is outside of the
buffer if nothing follows. -/
def packKeys (primary : Bool) (len ds : Nat) (rest : Bytes) :
    Option Bytes → List Entry → Nat → Bytes → Outcome (Option (List Mid × Bytes))
  | _, [], _, tail => .ok (some ([], tail))
  | prev, e :: es, plen, tail =>
    if prev ≠ none ∧ leftOf prev e.key = len ∧ es = [] ∧ rest = [] then .ub
    else if leftOf prev e.key + trailing e.key > len ∧ (leftOf prev e.key < len ∨ primary = true) then .throw
    else if plen + (len - leftOf prev e.key - rightOf len (leftOf prev e.key) e.key) ≥ ds then .ok none
    else do
      let r ← packKeys primary len ds rest (some e.key) es (plen + (len - leftOf prev e.key - rightOf len (leftOf prev e.key) e.key))
        ((e.key.drop (leftOf prev e.key)).take (len - leftOf prev e.key - rightOf len (leftOf prev e.key) e.key) ++ tail)
      .ok (r.map (fun x => (⟨e.num, leftOf prev e.key, rightOf len (leftOf prev e.key) e.key⟩ :: x.1, x.2)))

/-- The packed record (Index.cpp:591-595). `indrec` is an `int64_t`; all its bits are in
use at most when `recbytes` is 8, and shifting into the sign bit is taken to do
what compilers do. -/
def word (lb nb : Nat) (m : Mid) : Nat := (((m.right <<< lb) ||| m.left) <<< nb) ||| m.num

/-- Bytes of one packed record (Index.cpp:558-562). -/
def recBytes (len : Nat) (es : List Entry) : Nat :=
  (bits (es.foldl (fun a e => if a < e.num then e.num else a) 0) + bits len + bits len + 7) / 8

/-- `pack_leafpage` (Index.cpp:471-602). The page's links (bytes 4 to 11) are not touched.
`none` is `return false`; the page's contents are of no interest then. -/
def pack (primary : Bool) (len pagesize : Nat) (rest : Bytes) (es : List Entry) (page : Bytes) : Outcome (Option Bytes) :=
  match packKeys primary len (pagesize - 30) rest none es 0 [] with
  | .ok (some (ms, tail)) =>
    let lb := bits len
    let rb := recBytes len es
    let nb := rb * 8 - lb - lb
    if rb * es.length + tail.length > pagesize - 30 then .ok none
    else if rb > 8 then .ub
    else
      let free := pagesize - 30 - rb * es.length - tail.length
      .ok (some (le 2 2 ++ le 2 es.length ++ (page.drop 4).take 8 ++ le 2 free ++ le 4 (mask nb) ++ le 2 (mask lb) ++
        le 2 (mask lb) ++ le 2 nb ++ le 2 lb ++ le 2 lb ++ le 2 rb ++
        ((ms.map (fun m => le rb (word lb nb m))).flatten ++ (List.replicate free 0 ++ tail))))
  | .ok none => .ok none
  | .throw => .throw
  | .ub => .ub

/-- `>>=` of an `int64_t`, on its 64 bits. Serves the model of Index.cpp:445-465. -/
def sar (w s : Nat) : Nat := w / 2 ^ s + (if w < 2 ^ 63 then 0 else 2 ^ 64 - 2 ^ (64 - s))

/-- The header of a leaf page (Index.h:69-82). -/
structure Hdr where
  nm : Nat
  lm : Nat
  rm : Nat
  nb : Nat
  lb : Nat
  rb : Nat
  deriving DecidableEq, Repr

/-- The loop of `unpack_leafpage` (Index.cpp:445-465): `rpos` and `ipos` are the positions of
`rbuf` and `ibuf` in the page, `prev` the key before. Outside of the page or of the output
buffer the behaviour is undefined, as it is for a shift by 64 or more. -/
def unpackLoop (len : Nat) (h : Hdr) (page : Bytes) : Nat → Nat → Nat → Option Bytes → Outcome (List Entry)
  | 0, _, _, _ => .ok []
  | n + 1, rpos, ipos, prev => do
    let w ← rd page rpos 8
    if h.nb ≥ 64 ∨ h.lb ≥ 64 then .ub
    else
      let num := w &&& h.nm
      let left := sar w h.nb &&& h.lm
      let right := sar (sar w h.nb) h.lb &&& h.rm
      if left + right > len then .ub
      else if left ≠ 0 ∧ prev = none then .ub
      else if ipos < len - left - right then .ub
      else do
        let key := (prev.getD []).take left ++ (page.drop (ipos - (len - left - right))).take (len - left - right) ++ List.replicate right 0
        let r ← unpackLoop len h page n (rpos + h.rb) (ipos - (len - left - right)) (some key)
        .ok (⟨num, key⟩ :: r)

/-- `unpack_leafpage` (Index.cpp:399-468). -/
def unpack (len : Nat) (page : Bytes) : Outcome (List Entry) :=
  if len = 0 then .ok []
  else do
    let flags ← rd page 0 2
    if flags &&& 2 = 0 then .throw
    else do
      let n ← rd page 2 2
      if n = 0 then .ok []
      else do
        let nm ← rd page 14 4
        let lm ← rd page 18 2
        let rm ← rd page 20 2
        let nb ← rd page 22 2
        let lb ← rd page 24 2
        let rb ← rd page 28 2
        unpackLoop len ⟨nm, lm, rm, nb, lb, rb⟩ page n 30 page.length none

end Verif.Index
