import Verif.Container.Dying
import Verif.Container.OpenSpec

/-!
# Specification: files that are added to a container
-/

namespace Verif.Container.Spec
open Verif Verif.Unicode.Spec

/-- The names of the added files are not yet in use, and differ from each other. -/
def AllNew (ps : Contents) (fs : List NewFile) : Prop :=
  (∀ f ∈ fs, ∀ p ∈ ps, ¬ SameText p.1 f.name) ∧ fs.Pairwise fun f g => ¬ SameText f.name g.name

/-- What a user expects once they are added. -/
def withNew (ps : Contents) (fs : List NewFile) : Contents := ps ++ fs.map fun f => (f.name, f.body)

/-- What a user expects if files may also be replaced. -/
def withFiles (ps : Contents) (fs : List NewFile) : Contents := fs.foldl (fun ps f => store f.name f.body ps) ps

/-- The bytes that the added files take: two page headers, the header with the times and the name, and the packed contents. -/
def needs (cd : Codec) (fs : List NewFile) : Nat :=
  (fs.map fun f => (match cd.pack f.body with | .ok p => p.length | _ => 0) + (utf16Text f.name).length + 86).sum

end Verif.Container.Spec
