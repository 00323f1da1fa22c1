import Verif.Container.Model

/-!
# What a container is

A page at address `a` with size `p` is a 31-byte header followed by `p` bytes. A
chain is a sequence of pages, each header naming the next page, the last naming
`0x7fffffff`. A block is a chain whose first header also gives the number of bytes
stored; the bytes are the chain's page bodies one after another, cut to that
number. Unused pages form one more chain, the free chain.
-/

namespace Verif.Container.Spec
open Verif

/-- The eight digits of a number, most significant first, in lower case. -/
def digits (v : Nat) : Bytes :=
  ((List.range 8).map fun i =>
    let d := v / 16 ^ (7 - i) % 16
    if d < 10 then UInt8.ofNat (0x30 + d) else UInt8.ofNat (0x61 + (d - 10)))

/-- CR LF, data size, space, page size, space, next address, space, CR LF. -/
def header (ds p n : Nat) : Bytes :=
  [0x0d, 0x0a] ++ digits ds ++ [0x20] ++ digits p ++ [0x20] ++ digits n ++ [0x20, 0x0d, 0x0a]

/-- Bytes `[a, a + n)` of the container. -/
def slice (d : Bytes) (a n : Nat) : Bytes := (d.drop a).take n

structure Page where
  addr : Nat
  size : Nat
  deriving DecidableEq, Repr

/-- First address after the page. -/
def Page.stop (g : Page) : Nat := g.addr + 31 + g.size

/-- Two pages do not overlap. -/
def Apart (g h : Page) : Prop := g.stop ≤ h.addr ∨ h.stop ≤ g.addr

/-- The address of a chain's first page; `LAST` for no page. -/
def headAddr : List Page → Nat
  | [] => LAST
  | g :: _ => g.addr

/-- The chain's headers are in place: each gives the page's size and the address of
the next page. -/
def Linked (d : Bytes) : List Page → Prop
  | [] => True
  | g :: gs => (∃ ds, ds < 2 ^ 31 ∧ slice d g.addr 31 = header ds g.size (headAddr gs)) ∧ Linked d gs

/-- The bytes of the chain's pages. -/
def body (d : Bytes) (gs : List Page) : Bytes := gs.flatMap fun g => slice d (g.addr + 31) g.size

def total (gs : List Page) : Nat := (gs.map Page.size).sum

/-- The chain stores `bs`: the first header says how many bytes, the bodies hold
them, and there are no more pages than needed (a block always has one page). -/
def Stores (d : Bytes) (gs : List Page) (bs : Bytes) : Prop :=
  (∃ g rest, gs = g :: rest ∧ slice d g.addr 31 = header bs.length g.size (headAddr rest)) ∧
  bs.length < 2 ^ 31 ∧ bs.length ≤ total gs ∧ (body d gs).take bs.length = bs ∧
  (gs.length = 1 ∨ total gs.dropLast < bs.length)

/-- A container: the free chain and the blocks, each with its chain and its bytes. -/
structure Layout (d : Bytes) (next : Nat) (free : List Page) (blocks : List (List Page × Bytes)) :
    Prop where
  /-- the free chain starts where the file header says -/
  head : next = headAddr free
  freeLinked : Linked d free
  /-- every block is a linked chain that stores its bytes -/
  linked : ∀ b ∈ blocks, Linked d b.1
  stored : ∀ b ∈ blocks, Stores d b.1 b.2
  /-- pages lie behind the file header, inside the stream, and do not overlap -/
  inside : ∀ g ∈ free ++ (blocks.map Prod.fst).flatten, 16 ≤ g.addr ∧ g.stop ≤ d.length
  apart : (free ++ (blocks.map Prod.fst).flatten).Pairwise Apart
  /-- no page has size zero, except that of a block that holds nothing -/
  roomyFree : ∀ g ∈ free, 0 < g.size
  roomy : ∀ b ∈ blocks, (∀ g ∈ b.1, 0 < g.size) ∨ b.2 = []

/-! ## The container as a store of byte strings -/

/-- Which addresses hold a block, and its bytes. -/
abbrev Store := Nat → Option Bytes

def Store.set (s : Store) (a : Nat) (v : Option Bytes) : Store := fun x => if x = a then v else s x

inductive Op where
  | create (bs : Bytes)
  | rewrite (a : Nat) (bs : Bytes)
  | release (a : Nat)

/-- The effect of an operation; `ret` is the address it returned. -/
def apply (s : Store) (ret : Nat) : Op → Store
  | .create bs => s.set ret (some bs)
  | .rewrite a bs => s.set a (some bs)
  | .release a => s.set a none

/-- The container `c` holds exactly the blocks of `s`. -/
def Rep (c : Cat) (s : Store) : Prop :=
  ∃ free blocks, Layout c.data.data c.next free blocks ∧ 16 < c.data.data.length ∧
    ∀ a bs, s a = some bs ↔ ∃ b ∈ blocks, headAddr b.1 = a ∧ b.2 = bs

/-- The page at `a` has room: the page size in its header is not zero. -/
def HasRoom (d : Bytes) (a : Nat) : Prop := slice d (a + 11) 8 ≠ digits 0

end Verif.Container.Spec
