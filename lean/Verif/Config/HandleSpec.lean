import Verif.Config.Handle

/-! # Specification vocabulary: opening a file of a configuration -/

namespace Verif.Config.Opening.Spec
open Verif Verif.Config

/-- The raw contents of a file: all its parts can be read, and these are their bytes one after the
other. -/
def Raw (io : Io) (parts : List (Nat × Nat)) (raw : Bytes) : Prop :=
  (∀ p ∈ parts, (io.blob p.1 p.2).2 = true) ∧ raw = parts.flatMap (fun p => (io.blob p.1 p.2).1)

/-- The contents of a file of this name: the raw ones, inflated if files of this name are packed. -/
def Plain (lower : Str → Str) (io : Io) (name : Str) (raw plain : Bytes) : Prop :=
  (isPacked lower name = .ok true ∧ io.inflate raw = (plain, true)) ∨ (isPacked lower name = .ok false ∧ plain = raw)

/-- What a caller may do with a file. -/
inductive Op where
  | open
  | ropen
  | close

/-- One of these; an exception leaves the state as it is then. -/
def step (lower : Str → Str) (io : Io) (name : Str) (parts : List (Nat × Nat)) (h : Handle) : Op → Outcome Handle
  | .open => do
    let x ← h.open lower io name parts
    .ok x.1
  | .ropen => do
    let x ← h.ropen lower io name parts
    .ok x.1
  | .close => h.close

/-- Several, one after the other. -/
def run (lower : Str → Str) (io : Io) (name : Str) (parts : List (Nat × Nat)) : List Op → Handle → Outcome Handle
  | [], h => .ok h
  | op :: ops, h => do
    let h ← step lower io name parts h op
    run lower io name parts ops h

/-- A stream with these contents, to be read from its beginning. -/
def Holds (h : Handle) (p : Option Nat) (data : Bytes) : Prop := ∃ i, p = some i ∧ h.heap[i]? = some (some ⟨data, 0⟩)

/-- No stream is left that nothing points to. -/
def NoLeak (h : Handle) : Prop := ∀ i c, h.heap[i]? = some (some c) → h.stream = some i ∨ h.rstream = some i

end Verif.Config.Opening.Spec
