import Verif.Basic

/-!
# Specification: a growable byte array with a cursor

`byte i` is the byte at offset `i`; offsets from `len` on hold 0 by convention, so
that growing exposes zeros.
-/

namespace Verif.Stream.Spec
open Verif

structure Arr where
  len : Nat
  byte : Nat → UInt8
  cur : Nat

/-- The bytes at offsets `a … a+n-1`. -/
def Arr.slice (s : Arr) (a n : Nat) : Bytes := (List.range n).map (fun k => s.byte (a + k))

def empty : Arr := ⟨0, fun _ => 0, 0⟩

/-- Operations of the stream API that a caller may issue. -/
inductive Op where
  | write (bs : Bytes)
  | read (n : Nat)
  | seekBegin (o : Nat)
  | seekCurrent (o : Int)
  | seekEnd (o : Int)      -- the code's convention: new position is size - o
  | setSize (n : Nat)
  | setPosition (p : Nat)

/-- What a caller observes. -/
inductive Out where
  | bytes (b : Bytes)
  | num (n : Nat)
  | none
  | error
  deriving DecidableEq, Repr

/-- The array's behaviour. -/
def step (s : Arr) : Op → Arr × Out
  | .write bs =>
    (⟨max s.len (s.cur + bs.length),
      fun i => if s.cur ≤ i ∧ i < s.cur + bs.length then bs.getD (i - s.cur) 0 else s.byte i,
      s.cur + bs.length⟩, .num bs.length)
  | .read n =>
    ({ s with cur := s.cur + min n (s.len - s.cur) }, .bytes (s.slice s.cur (min n (s.len - s.cur))))
  | .seekBegin o => if o ≤ s.len then ({ s with cur := o }, .num o) else (s, .error)
  | .seekCurrent o =>
    if 0 ≤ (s.cur : Int) + o ∧ (s.cur : Int) + o ≤ s.len then
      ({ s with cur := ((s.cur : Int) + o).toNat }, .num ((s.cur : Int) + o).toNat)
    else (s, .error)
  | .seekEnd o =>
    if o ≤ s.len then
      ({ s with cur := ((s.len : Int) - o).toNat }, .num ((s.len : Int) - o).toNat)
    else (s, .error)
  | .setSize n => (⟨n, fun i => if i < n then s.byte i else 0, min s.cur n⟩, .none)
  | .setPosition p => ({ s with cur := p }, .none)

/-- All observations of a history. -/
def run (s : Arr) : List Op → Arr × List Out
  | [] => (s, [])
  | op :: ops =>
    let (s', o) := step s op
    let (s'', os) := run s' ops
    (s'', o :: os)

/-- Every `seekEnd` of the history asks for a position inside or after the stream
(never before its beginning). -/
def noBadSeekEnd (s : Arr) : List Op → Prop
  | [] => True
  | op :: ops =>
    (match op with | .seekEnd o => o ≤ s.len | _ => True) ∧ noBadSeekEnd (step s op).1 ops

end Verif.Stream.Spec
