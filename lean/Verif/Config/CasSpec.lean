import Verif.Config.Cas
import Verif.Cli.Spec

/-! # Specification vocabulary: lists of files with their hashes -/

namespace Verif.Config.Spec
open Verif Tree

/-- The text is the number `n`, in decimal digits. -/
def IsNumber (s : Str) (n : Nat) : Prop :=
  ∃ ds, ds ≠ [] ∧ (∀ d ∈ ds, d < 10) ∧ Cli.Spec.value ds = n ∧ raw s = Cli.Spec.digits ds

/-- A hash as a list of files has it: in base64. -/
def hashText (h : Bytes) : Str := (Base64.encode [] 0 h).map Char.ofNat

/-- A name and a hash as values of a list. -/
def pairNodes (e : Str × Bytes) : List Node := [Node.leaf .string e.1, Node.leaf .binary2 (hashText e.2)]

/-- The tree lists these files: its third value is a list of their number, then names and
hashes. -/
def Lists (tt : Node) (entries : List (Str × Bytes)) : Prop :=
  ∃ a b t v cnt extra more, tt.kids = a :: b :: .mk t v (cnt :: (entries.flatMap pairNodes ++ extra)) :: more ∧ IsNumber cnt.value entries.length

/-- The file of this name in a table. -/
def Stored (lower : Str → Str) (tab : List (Str × TFile)) (name : Str) (f : TFile) : Prop := find tab (lower name) = some f

/-- The last of the files listed under a name, whatever its case. -/
def LastListed (lower : Str → Str) (entries : List (Str × Bytes)) (name : Str) (e : Str × Bytes) : Prop :=
  ∃ A B, entries = A ++ e :: B ∧ lower e.1 = lower name ∧ ∀ x ∈ B, lower x.1 ≠ lower name

/-- The storage gives this file for a name. -/
def Gives (lower : Str → Str) (out : List (Str × Named)) (name : Str) (f : TFile) : Prop := ∃ n, find out (lower name) = some ⟨n, f⟩

/-- No hash is shorter than one before it. -/
def Growing (entries : List (Str × Bytes)) : Prop := entries.Pairwise (fun a b => a.2.length ≤ b.2.length)

/-- The file of the table belongs to this configuration: its name begins so. -/
def SavedFor (lower : Str → Str) (uid : Bytes) (p : Str × TFile) : Prop :=
  lower (p.1.take (Guid.as1C uid ++ "__".toList).length) = lower (Guid.as1C uid ++ "__".toList)

end Verif.Config.Spec
