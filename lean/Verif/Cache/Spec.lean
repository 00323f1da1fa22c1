import Verif.Basic

/-!
# Specification: an array of pages over a disk

No cache here: `pages` is what the user sees, `disk` what survives a crash.
-/

namespace Verif.Cache.Spec
open Verif

structure State where
  pages : List Bytes
  disk : Bytes

inductive Op where
  /-- read page `n` -/
  | read (n : Nat)
  /-- modify page `n` by `f`, having asked for its old contents -/
  | modify (n : Nat) (f : Bytes → Bytes)
  /-- replace page `n` (or the page after the last one) by `p` -/
  | replace (n : Nat) (p : Bytes)
  /-- drop clean pages from memory -/
  | clean (aggressive : Bool)
  | flush

inductive Out where
  | page (b : Bytes)
  | done
  | refused
  deriving DecidableEq, Repr

/-- The number `n` written in 4 bytes, least significant first, at offset 12. -/
def putLength (n : Nat) (p : Bytes) : Bytes :=
  p.take 12 ++ (List.range 4).map (fun k => UInt8.ofNat (n / 256 ^ k)) ++ p.drop 16

def step (s : State) : Op → State × Out
  | .read n =>
    match s.pages[n]? with
    | some p => (s, .page p)
    | none => (s, .refused)
  | .modify n f =>
    match s.pages[n]? with
    | some p => ({ s with pages := s.pages.set n (f p) }, .done)
    | none => (s, .refused)
  | .replace n p =>
    if n < s.pages.length then ({ s with pages := s.pages.set n p }, .done)
    else if n = s.pages.length then
      -- grow by one page; the header page records the new count
      ({ s with pages := s.pages.modify 0 (putLength (n + 1)) ++ [p] }, .done)
    else (s, .refused)
  | .clean _ => (s, .done)
  | .flush => ({ s with disk := s.pages.flatten }, .done)

def run (s : State) : List Op → State × List Out
  | [] => (s, [])
  | op :: ops =>
    let (s', o) := step s op
    let (s'', os) := run s' ops
    (s'', o :: os)

/-- The caller keeps pages at their size, and does not ask for the old contents of
the page after the last one. -/
def wellUsed (page : Nat) (s : State) : List Op → Prop
  | [] => True
  | op :: ops =>
    (match op with
      | .modify n f => (∀ p, p.length = page → (f p).length = page) ∧ n ≠ s.pages.length
      | .replace _ p => p.length = page
      | _ => True) ∧ wellUsed page (step s op).1 ops

end Verif.Cache.Spec
