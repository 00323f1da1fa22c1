import Verif.Vendor.Model
import Verif.Config.HandleSpec
import Verif.Container.OpenTheorems
import Verif.Tree.Spec
import Verif.Cli.Spec

/-!
# Specification vocabulary: vendor configurations

A vendor configuration is a container, packed twice, stored as a file whose name is two GUIDs. Its file `root` names
the metadata file, and that one says what the configuration is called.
-/

namespace Verif.Vendor.Spec
open Verif Verif.Config Verif.Container Verif.Container.Spec Verif.Unicode.Spec Verif.Tree

/-- The node at the end of a path: which child, which of its children, … -/
def nodeAt : Node → List Nat → Option Node
  | n, [] => some n
  | n, i :: is => (n.kids[i]?).bind fun k => nodeAt k is

/-- The bytes of the value there. -/
def valueAt (n : Node) (path : List Nat) : Option Bytes :=
  (nodeAt n path).map fun k => k.value.map fun c => UInt8.ofNat c.toNat

/-- The bytes are the decimal digits of a number. -/
def Number (b : Bytes) (n : Nat) : Prop :=
  ∃ ds : List Nat, ds ≠ [] ∧ (∀ d ∈ ds, d < 10) ∧ b = Cli.Spec.digits ds ∧ Cli.Spec.value ds = n ∧ n < 2 ^ 31

/-- Every character stands for a byte. -/
inductive ByteValues : Node → Prop where
  | mk {t v ks} : (∀ c ∈ v, Char.toNat c < 256) → (∀ k ∈ ks, ByteValues k) → ByteValues (.mk t v ks)

/-- The bytes are a file with this bracket text in it: UTF-8 or UTF-16, behind the mark that says which. -/
def Doc (b : Bytes) (n : Node) : Prop :=
  Tree.Spec.WellFormed n ∧ n ≠ .mk .empty [] [] ∧ ByteValues n ∧
    let text : Bytes := (outtext (.list [n])).map fun c => UInt8.ofNat c.toNat
    (b = [0xEF, 0xBB, 0xBF] ++ text ∨
      ∃ cps, (∀ c ∈ cps, Scalar c) ∧ text = utf8Text cps ∧ b = [0xFF, 0xFE] ++ utf16Text cps)

/-- The letters of a word. -/
def word (s : String) : List Nat := s.toList.map Char.toNat

/-- The GUID of the node with the properties of the configuration. -/
def general : List Nat := word "9cd510cd-abfc-11d4-9434-004095e12fc7"

/-- The metadata text says this of the configuration: among the counted nodes, the first one with the GUID above has it. -/
def Says (m : Node) (i : Info) : Prop :=
  ∃ (num : Bytes) (count g : Nat), valueAt m [2] = some num ∧ Number num count ∧ g < count ∧
    (∀ j, j < g → ∃ ty, valueAt m [3 + j, 0] = some (utf8Text ty) ∧ Unicode.Spec.Name ty ∧ ¬ SameText ty general) ∧
    (∃ ty, valueAt m [3 + g, 0] = some (utf8Text ty) ∧ Unicode.Spec.Name ty ∧ SameText ty general) ∧
    ∃ (v : Bytes) (ver : Nat), valueAt m [3 + g, 1, 1, 0] = some v ∧ Number v ver ∧
      valueAt m [3 + g, 1, 1, 1, 1, 2] = some i.name ∧
      valueAt m [3 + g, 1, 1, if ver = 15 then 11 else 14] = some i.supplier ∧
      valueAt m [3 + g, 1, 1, if ver = 15 then 12 else 15] = some i.version

/-- The bytes are a container with these contents, in some legal way filled and flushed. -/
def Filled (cd : Codec) (b : Bytes) (cs : Contents) : Prop :=
  ∃ (fuel : Nat) (ops : List UserOp) (k k' : Catalog), LAST ≤ fuel ∧ Allowed cd fuel blankCatalog (ops ++ [.flush]) ∧
    session cd fuel blankCatalog ops = .ok (some k) ∧ flush cd fuel k = .ok (some k') ∧ b = k'.cat.data.data ∧
    cs = ops.foldl after []

/-- The metadata among these files say this. -/
def Metadata (cs : Contents) (i : Info) : Prop :=
  ∃ (rb : Bytes) (r : Node) (name : List Nat) (mb : Bytes) (m : Node),
    lookup cs (word "root") = some rb ∧ Doc rb r ∧ valueAt r [1] = some (utf8Text name) ∧ Unicode.Spec.Name name ∧
    lookup cs name = some mb ∧ Doc mb m ∧ Says m i

/-- The container is a vendor configuration with this name, vendor and version. Below format 100 its files are in
a container inside. -/
def Config (cd : Codec) (b : Bytes) (i : Info) : Prop :=
  ∃ (cs : Contents) (vb : Bytes) (vt : Node) (v : Bytes) (ver : Nat),
    Filled cd b cs ∧ lookup cs (word "version") = some vb ∧ Doc vb vt ∧ valueAt vt [0, 0] = some v ∧ Number v ver ∧
    ((100 ≤ ver ∧ Metadata cs i) ∨
     (ver < 100 ∧ ∃ inner cs', lookup cs (word "metadata") = some inner ∧ Filled plainCodec inner cs' ∧ Metadata cs' i))

/-- The file has the container packed twice in it. -/
def Packed (w : World) (f : VFile) (b : Bytes) : Prop :=
  ∃ raw plain, Opening.Spec.Raw w.io f.parts raw ∧ Opening.Spec.Plain w.lower w.io f.name raw plain ∧
    w.io.inflate plain = (b, true)

/-- The file is a vendor configuration. -/
def IsVendor (w : World) (f : VFile) (b : Bytes) (i : Info) : Prop := Packed w f b ∧ Config w.cd b i

/-- The vendor configurations among these files, and what they say. -/
def vendors (what : VFile → Info) (fs : List VFile) : List (VFile × Info) :=
  (fs.filter fun f => f.key.length = 73).map fun f => (f, what f)

/-- The file a configuration is saved in: its name, a blank, its version, `.cf`. -/
def target (i : Info) : Bytes := i.name ++ [0x20] ++ i.version ++ [0x2e, 0x63, 0x66]

end Verif.Vendor.Spec
