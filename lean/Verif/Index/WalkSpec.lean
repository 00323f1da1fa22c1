import Verif.Index.Walk

/-! # Specification vocabulary: the pages of an index in its file -/

namespace Verif.Index.Spec
open Verif Index

/-- At this offset the bytes are the number `n` in `k` bytes, low byte first. -/
def At (p : Bytes) (off k n : Nat) : Prop := ∃ pre post, p = pre ++ (le k n ++ post) ∧ pre.length = off ∧ n < 256 ^ k

/-- The same, high byte first. -/
def AtBe (p : Bytes) (off k n : Nat) : Prop := ∃ pre post, p = pre ++ ((le k n).reverse ++ post) ∧ pre.length = off ∧ n < 256 ^ k

/-- Block `n` of the index file is this page. In the older formats a block is named by its
byte offset, in 8.3.8 by its number. -/
def PageAt (b : Base) (n : Nat) (page : Bytes) : Prop :=
  ∃ pre post, b.file = pre ++ (page ++ post) ∧ pre.length = (if b.v838 then n * b.pagesize else n) ∧ page.length = b.pagesize

/-- The page is a leaf that lists these record numbers and is followed by block `next`. -/
structure IsLeaf (page : Bytes) (nums : List Nat) (next : Nat) : Prop where
  flag : ∃ f, At page 0 1 f ∧ f.testBit 1 = true
  count : At page 2 2 nums.length ∧ nums.length < 32768
  next : At page 8 4 next
  recs : ∃ m w, At page 14 4 m ∧ At page 28 2 w ∧ w < 32768 ∧
    ∀ i x, nums[i]? = some x → ∃ r, At page (30 + i * w) 4 r ∧ r &&& m = x

/-- The page is a branch, and block `child` is below its first entry, whose key has `len`
bytes and is followed by a record number. -/
structure IsBranch (len : Nat) (page : Bytes) (child : Nat) : Prop where
  flag : ∃ f, At page 0 1 f ∧ f.testBit 1 = false
  child : AtBe page (12 + len + 4) 4 child

/-- `leaf` is the leftmost leaf below block `n`. -/
inductive Leftmost (b : Base) (len : Nat) : Nat → Nat → Prop
  | leaf {n page nums next} : PageAt b n page → IsLeaf page nums next → Leftmost b len n n
  | branch {n page child l} : PageAt b n page → IsBranch len page child → Leftmost b len child l → Leftmost b len n l

/-- The leaves from block `n` on list these record numbers, page by page; the last one has
no next block. -/
inductive Leaves (b : Base) : Nat → List (List Nat) → Prop
  | last {n page nums} : PageAt b n page → IsLeaf page nums 4294967295 → Leaves b n [nums]
  | more {n page nums next rest} : PageAt b n page → IsLeaf page nums next → next ≠ 4294967295 →
      Leaves b next rest → Leaves b n (nums :: rest)

/-- At its start the index has the number of its root block and the length of its keys. -/
def Header (b : Base) (root len : Nat) : Prop :=
  0 < b.start ∧ b.start + 8 ≤ b.file.length ∧ At b.file b.start 4 root ∧ At b.file (b.start + 4) 2 len ∧ len < 32768

end Verif.Index.Spec
