import Verif.Index.Leaf

/-! # Specification vocabulary: index pages -/

namespace Verif.Index.Spec
open Verif Index

/-- `a` comes before `b`: at the first byte where they differ, `a` is smaller (`memcmp`). -/
def Before (a b : Bytes) : Prop :=
  ∃ i x y, a.take i = b.take i ∧ a[i]? = some x ∧ b[i]? = some y ∧ x < y

/-- Every entry has a key of `len` bytes and a 32-bit record number. -/
def Entries (len : Nat) (es : List Entry) : Prop := ∀ e ∈ es, e.key.length = len ∧ e.num < 2 ^ 32

/-- Keys in order; in a primary index no two are equal. -/
def Sorted (primary : Bool) : List Entry → Prop
  | a :: b :: es => (Before a.key b.key ∨ (primary = false ∧ a.key = b.key)) ∧ Sorted primary (b :: es)
  | _ => True

/-- Length of the common prefix of two keys. -/
def shared (a b : Bytes) : Nat := ((List.zip a b).takeWhile (fun p => p.1 == p.2)).length

/-- Number of zero bytes a key ends with. -/
def zeroTail (k : Bytes) : Nat := (k.reverse.takeWhile (· == 0)).length

/-- Bytes shared with the key before; the first key shares nothing. -/
def sharedWith : Option Bytes → Bytes → Nat
  | none, _ => 0
  | some p, k => shared k p

/-- The key bytes a page stores: of each key what is neither shared with the key before nor
in its tail of zeros. -/
def stored (len : Nat) : Option Bytes → List Entry → Nat
  | _, [] => 0
  | prev, e :: es => (len - (sharedWith prev e.key + zeroTail e.key)) + stored len (some e.key) es

/-- Least number of bits that can hold `n`. -/
def IsBits (n b : Nat) : Prop := n < 2 ^ b ∧ ∀ c, n < 2 ^ c → b ≤ c

/-- Width of a packed record: room for the largest record number and two lengths. -/
def IsWidth (len : Nat) (es : List Entry) (w : Nat) : Prop :=
  ∃ a b m, IsBits len a ∧ IsBits m b ∧ (∀ e ∈ es, e.num ≤ m) ∧ (m = 0 ∨ ∃ e ∈ es, e.num = m) ∧ w = (b + a + a + 7) / 8

end Verif.Index.Spec
