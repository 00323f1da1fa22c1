import Verif.Object.Spec

/-!
# Specification: a file of blobs

The file is a sequence of 256-byte blocks. Block 0 starts with the number of the first
free block. Every other block starts with the number of the next block of its chain (0:
last), then the number of bytes it holds (two bytes), then up to 250 bytes.
-/

namespace Verif.Blob.Spec
open Verif

/-- Two bytes, little-endian. -/
def half (p : Bytes) (off : Nat) : Option Nat := do
  let a ← p[off]?
  let b ← p[off + 1]?
  some (a.toNat + 256 * b.toNat)

/-- The chain that starts with block `b` consists of the blocks listed. -/
def Chain (A : List Bytes) : Nat → List Nat → Prop
  | b, [] => b = 0
  | b, x :: xs => b = x ∧ x ≠ 0 ∧ ∃ p nx, A[x]? = some p ∧ Object.Spec.word p 0 = some nx ∧ Chain A nx xs

/-- The bytes held by a block. -/
def Holds (A : List Bytes) (x : Nat) (d : Bytes) : Prop :=
  ∃ p, A[x]? = some p ∧ half p 4 = some d.length ∧ d.length ≤ 250 ∧ (p.drop 6).take d.length = d

/-- The bytes held by a list of blocks together. -/
def Content (A : List Bytes) : List Nat → Bytes → Prop
  | [], d => d = []
  | x :: xs, d => ∃ d1 d2, d = d1 ++ d2 ∧ Holds A x d1 ∧ Content A xs d2

structure Entry where
  first : Nat
  chain : List Nat
  data : Bytes

structure State where
  free : List Nat
  blobs : List Entry

/-- The blocks in use or free. -/
def State.all (s : State) : List Nat := s.free ++ s.blobs.flatMap (·.chain)

/-- The file `f` consists of the given blobs and free blocks: every block but block 0
belongs to exactly one of them. -/
structure Represents (f : Bytes) (s : State) : Prop where
  ex : ∃ A : List Bytes, f = A.flatten ∧ (∀ p ∈ A, p.length = 256) ∧ 0 < A.length ∧
    (∃ p0, A[0]? = some p0 ∧ Object.Spec.word p0 0 = some (s.free.headD 0)) ∧
    Chain A (s.free.headD 0) s.free ∧
    (∀ b ∈ s.blobs, b.first ≠ 0 ∧ Chain A b.first b.chain ∧ Content A b.chain b.data) ∧
    s.all.Perm (List.range' 1 (A.length - 1))

end Verif.Blob.Spec
