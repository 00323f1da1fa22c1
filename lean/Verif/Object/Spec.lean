import Verif.Basic

/-!
# Specification: which bytes an internal file consists of

Read directly off the pages of the database, without the reading code.
-/

namespace Verif.Object.Spec
open Verif

/-- 32-bit little-endian number at an offset of a page. -/
def word (p : Bytes) (off : Nat) : Option Nat := do
  let a ← p[off]?
  let b ← p[off + 1]?
  let c ← p[off + 2]?
  let d ← p[off + 3]?
  return a.toNat + 256 * b.toNat + 65536 * c.toNat + 16777216 * d.toNat

/-- How the pages of a file are found. -/
inductive Shape where
  /-- the header lists data pages -/
  | direct (rootOff : Nat)
  /-- the header lists table pages; a table holds `per` data page numbers from
  offset `hdr` -/
  | tables (rootOff per hdr : Nat)

/-- Files of format 8.0: root at offset 24, tables of 1023 entries after a count. -/
def file80 : Shape := .tables 24 1023 4
/-- The free-page file of format 8.0. -/
def free80 : Shape := .direct 24
/-- Files of format 8.3.8 with one and with two levels. -/
def file838one : Shape := .direct 24
def file838two (P : Nat) : Shape := .tables 24 (P / 4) 0

/-- The number of the `k`-th data page of the file with header page `h`. -/
def dataPage (pages : List Bytes) (s : Shape) (h k : Nat) : Option Nat := do
  let hp ← pages[h]?
  match s with
  | .direct off => word hp (off + 4 * k)
  | .tables off per hdr => do
    let t ← word hp (off + 4 * (k / per))
    let tp ← pages[t]?
    word tp (hdr + 4 * (k % per))

/-- Byte `i` of the file: byte `i mod P` of its data page number `i div P`. -/
def byteAt (pages : List Bytes) (P : Nat) (s : Shape) (h i : Nat) : Option UInt8 := do
  let n ← dataPage pages s h (i / P)
  let p ← pages[n]?
  p[i % P]?

/-- `bs` are the bytes `start, start+1, …` of the file. -/
def Holds (pages : List Bytes) (P : Nat) (s : Shape) (h start : Nat) (bs : Bytes) : Prop :=
  ∀ i (hi : i < bs.length), byteAt pages P s h (start + i) = some bs[i]

/-- The entry count stored in table number `t` of a file of format 8.0. -/
def tableCount (pages : List Bytes) (h t : Nat) : Option Nat := do
  let hp ← pages[h]?
  let n ← word hp (24 + 4 * t)
  let tp ← pages[n]?
  word tp 0

/-- Every table of a file of format 8.0 and length `len` says it has enough entries:
all 1023, or in the last table enough for the rest. -/
def Filled80 (pages : List Bytes) (h len : Nat) : Prop :=
  ∀ t, t * (1023 * 4096) < len → ∃ c, tableCount pages h t = some c ∧ c ≤ 1023 ∧
    (c = 1023 ∨ ((t + 1) * (1023 * 4096) ≥ len ∧ t * (1023 * 4096) + c * 4096 ≥ len))

/-- The page of the allocation table through which data page `k` is found, if there is one. -/
def tablePage (pages : List Bytes) (s : Shape) (h k : Nat) : Option Nat := do
  let hp ← pages[h]?
  match s with
  | .direct _ => none
  | .tables off per _ => word hp (off + 4 * (k / per))

/-- The file with header page `h` has the data pages `D`, each used for one purpose only:
no data page is used twice, is the header, or is an allocation table, and no table is
the header. -/
structure Own (pages : List Bytes) (s : Shape) (h : Nat) (D : List Nat) : Prop where
  page : ∀ k (hk : k < D.length), dataPage pages s h k = some D[k]
  exists_ : ∀ q ∈ D, q < pages.length
  nodup : D.Nodup
  header : h ∉ D
  tables : ∀ k t, k < D.length → tablePage pages s h k = some t → t ∉ D ∧ t ≠ h

end Verif.Object.Spec
