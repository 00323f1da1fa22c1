import Verif.Config.Chain
import Verif.Config.StoredSpec
import Verif.Config.SaveSpec
import Verif.Config.WholeSpec
import Verif.Blob.Spec

/-! # Specification vocabulary: the configuration of a database as a container file -/

namespace Verif.Config.Chain.Spec
open Verif Verif.Config Verif.Unicode.Spec

/-- A stored file: the code points of its name, and for each part its place and its bytes. -/
structure CFile where
  name : List Nat
  parts : List ((Nat × Nat) × Bytes)

/-- Its contents. -/
def CFile.contents (f : CFile) : Bytes := f.parts.flatMap (·.2)

/-- The file with its name in bytes. -/
def CFile.stored (f : CFile) : Config.Spec.SFile := ⟨Field.Spec.utf8Str f.name, f.parts⟩

def codes (s : String) : List Nat := s.toList.map Char.toNat

/-- A name that stands for itself: it has no mark of an update, and its extension, if it has one, is neither empty nor `new`. -/
def Ordinary (name : List Nat) : Prop :=
  (46 ∉ name ∧ ¬ "_dynupdate_".toList <:+: Field.Spec.utf8Str name) ∨
  ∃ stem ext, name = stem ++ 46 :: ext ∧ 46 ∉ ext ∧ ext ≠ [] ∧ ¬ SameText ext (codes "new") ∧
    ¬ "_dynupdate_".toList <:+: Field.Spec.utf8Str stem

/-- The blobs hold the parts of the file. -/
def InBlobs (st : Blob.Spec.State) (f : CFile) : Prop :=
  ∀ p ∈ f.parts, ∃ b ∈ st.blobs, b.first = p.1.1 ∧ b.data = p.2 ∧ p.1.2 = p.2.length

/-- A bound on the length of the container. -/
def room (files : List CFile) : Nat :=
  2 ^ 17 + 31 + max (2 ^ 16) (12 * files.length) + (files.map fun f => f.contents.length + (utf16Text f.name).length + 86).sum

end Verif.Config.Chain.Spec
