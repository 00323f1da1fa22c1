import Verif.Index.Walk
import Verif.Index.Tree

/-! # Writing an index as text

Models `Index::dump` and `Index::dump_recursive` (src/tool1cd/Index.cpp:153-300, 352-379). The
result is the text of the file. Simplifications: the file named can be created and written;
what has been written when an exception is thrown is left open; the root block and the length
are read at each call (the class keeps them after the first reading); there is memory for keys
of any length. -/

namespace Verif.Index
open Verif Blob

/-- The characters of a literal. Serves the model of Index.cpp:225-248. -/
def ascii (s : String) : Bytes := s.toList.map (fun c => UInt8.ofNat c.toNat)

/-- `s += n` with a number `n` (for example 188, 190, 234, 236): `std::string` has no such operation
for numbers; the number is converted to a `char`, its low eight bits, and appended. Serves the model of Index.cpp:225-248. -/
def chr (n : Nat) : Bytes := [UInt8.ofNat n]

/-- `b += '0'; if(b > '9') b += 'a' - '9' - 1` (Index.cpp:237-238, 241-242, 281-282, 285-286). -/
def hexDigit (n : Nat) : UInt8 := UInt8.ofNat (if n + 48 > 57 then n + 48 + 39 else n + 48)

/-- `bf` (Index.cpp:232-244, 276-288): two digits and a space. -/
def hexByte (b : UInt8) : Bytes := [hexDigit (b.toNat / 16), hexDigit (b.toNat % 16), 32]

/-- The line of an entry of a leaf (Index.cpp:225-248) or of a branch (270-292). -/
def entryLine (mark : String) (level : Nat) (key : Bytes) (num : Nat) : Bytes :=
  ascii mark ++ chr level ++ ascii ": " ++ key.flatMap hexByte ++ ascii ": " ++ chr num ++ ascii "\r\n"

/-- `curblock == LAST_PAGE ? -1 : (curblock / pagesize)` (Index.cpp:189, 259), of which the low eight bits are written. -/
def blockNo (b : Base) (block : Nat) : Nat := if block = 4294967295 then 255 else block / b.pagesize

/-- `memset(curindex + length - right, 0, right - previous_right)` (Index.cpp:222). -/
def clear (len right prevRight : Nat) (cur : Bytes) : Bytes :=
  if right > prevRight then
    cur.take (len - right) ++ List.replicate (right - prevRight) 0 ++ cur.drop (len - right + (right - prevRight))
  else cur

/-- The loop over the entries of a leaf (Index.cpp:209-249); `cur` is `curindex`, which keeps the key before.
`length - left - right` is unsigned: when it wraps around, far more than a page is copied, which
is undefined. -/
def dumpLoop (len level : Nat) (h : Hdr) (page : Bytes) : Nat → Nat → Nat → Bytes → Nat → Outcome Bytes
  | 0, _, _, _, _ => .ok []
  | n + 1, rpos, ipos, cur, prevRight => do
    let w ← rd page rpos 8
    if h.nb ≥ 64 ∨ h.lb ≥ 64 then .ub
    else
      let num := w &&& h.nm
      let left := sar w h.nb &&& h.lm
      let right := sar (sar w h.nb) h.lb &&& h.rm
      if left + right > len then .ub
      else if ipos < len - left - right then .ub
      else do
        let cur := cur.take left ++ (page.drop (ipos - (len - left - right))).take (len - left - right) ++ cur.drop (len - right)
        let cur := clear len right prevRight cur
        let r ← dumpLoop len level h page n (rpos + h.rb) (ipos - (len - left - right)) cur right
        .ok (entryLine "  -" level cur num ++ r)

/-- A leaf (Index.cpp:173-253). -/
def dumpLeaf (b : Base) (len level block : Nat) (page : Bytes) (n : Nat) : Outcome Bytes := do
  let free ← rd page 12 2
  let nm ← rd page 14 4
  let lm ← rd page 18 2
  let rm ← rd page 20 2
  let nb ← rd page 22 2
  let lb ← rd page 24 2
  let rtb ← rd page 26 2
  let rb ← rd page 28 2
  let r ← dumpLoop len level ⟨nm, lm, rm, nb, lb, rb⟩ page n 30 page.length (List.replicate len 0) len
  .ok (ascii "=" ++ chr level ++ ascii " leaf, curblock " ++ chr (blockNo b block) ++ ascii ", count " ++ chr n ++
    ascii ", free " ++ chr free ++ ascii ", rec " ++ chr nb ++ ascii ", left " ++ chr lb ++ ascii ", right " ++ chr rtb ++
    ascii ", bytes " ++ chr rb ++ ascii "\r\n" ++ r)

/-- The loop over the entries of a branch (Index.cpp:267-293); `sub` writes the page below. -/
def dumpRefs (b : Base) (len level : Nat) (page : Bytes) (sub : Nat → Outcome (Option Bytes)) :
    Nat → Nat → Outcome (Option Bytes)
  | 0, _ => .ok (some [])
  | n + 1, pos => do
    let key ← peek page pos len
    let num ← rdBe page ((pos + len : Nat) : Int)
    let child ← rdBe page ((pos + len + 4 : Nat) : Int)
    match ← sub (b.offset child) with
    | none => .ok none
    | some below => do
      match ← dumpRefs b len level page sub n (pos + len + 8) with
      | none => .ok none
      | some rest => .ok (some (below ++ (entryLine "  +" level key num ++ rest)))

/-- The head of a branch (Index.cpp:257-264). -/
def branchHead (b : Base) (level block n : Nat) : Bytes :=
  ascii "*" ++ chr level ++ ascii " branch, curblock " ++ chr (blockNo b block) ++ ascii ", count " ++ chr n ++ ascii "\r\n"

/-- `dump_recursive` (Index.cpp:153-300) of the page at this offset. `none`: still going after that many pages
in depth. -/
def dumpAt (b : Base) (len : Nat) : Nat → Nat → Nat → Outcome (Option Bytes)
  | 0, _, _ => .ok none
  | f + 1, level, block => do
    let page ← getData b.file block b.pagesize
    let n ← rd page 2 2
    if n = 0 then .ok (some [])
    else do
      let flags ← rd page 0 2
      if flags &&& 2 ≠ 0 then do
        let r ← dumpLeaf b len level block page n
        .ok (some r)
      else do
        match ← dumpRefs b len level page (fun o => dumpAt b len f (level + 1) o) n 12 with
        | none => .ok none
        | some r => .ok (some (branchHead b level block n ++ r))

/-- The length of the keys: an `int16_t` assigned to an `uint32_t` (Index.cpp:373). -/
def keyLength (l : Nat) : Nat := if l < 2 ^ 15 then l else 2 ^ 32 - 2 ^ 16 + l

/-- `dump` (Index.cpp:352-379). -/
def dump (b : Base) (fuel : Nat) : Outcome (Option Bytes) :=
  if b.start = 0 then .ok (some [])
  else do
    let h ← getData b.file b.start 8
    let root ← rd h 0 4
    let l ← rd h 4 2
    match ← dumpAt b (keyLength l) fuel 0 (b.offset root) with
    | none => .ok none
    | some r => .ok (some (ascii "Index length " ++ ascii (toString (keyLength l)) ++ ascii "\r\n" ++ r))

end Verif.Index
