import Verif.Depot.File
import Verif.Depot.Spec
import Verif.Config.WholeSpec

/-! # Specification vocabulary: the file a version of a depot is saved into -/

namespace Verif.Depot.File.Spec
open Verif Verif.Unicode.Spec Verif.Config.Whole.Spec

/-- In the order of the code points of the names; no name twice. -/
def Sorted (m : List (Str × α)) : Prop := m.Pairwise fun p q => codes p.1 < codes q.1

/-- What is asked for: the version, the records of the depot, and what they hold. -/
structure Job where
  fold : Bytes → Bytes
  ver : Int
  hist : List Hist
  exts : List Ext
  S : Source
  objData : Hist → Bytes
  extData : Ext → Bytes

/-- The objects of the version and their external data: name, identifier of the version, contents. -/
inductive Part (j : Job) : Str → Bytes → Bytes → Prop where
  | object {r} : Depot.Spec.Newest j.ver j.hist r → Part j (Guid.asMS (j.S.objId r)) (j.S.objVer r) (j.objData r)
  | external {r e} : Depot.Spec.Newest j.ver j.hist r → Depot.Spec.Belongs j.fold j.ver j.exts r e →
      Part j (j.S.extName e) (j.S.extVer e) (j.extData e)

/-- Everything there is to read can be read, and nothing of it is empty. -/
def Readable (j : Job) : Prop :=
  (∀ r, Depot.Spec.Newest j.ver j.hist r → j.S.objData false r = .ok (some (j.objData r)) ∧ j.objData r ≠ []) ∧
  ∀ r e, Depot.Spec.Newest j.ver j.hist r → Depot.Spec.Belongs j.fold j.ver j.exts r e →
    j.S.extData e = .ok (some (j.extData e)) ∧ j.extData e ≠ []

/-- The names of the files every configuration has. -/
def fixed : List Str := ["root".toList, "version".toList, "versions".toList]

/-- The names can be told apart, whatever the case of their letters; none is empty, has a NUL or is that of a fixed file. -/
def Apart (j : Job) : Prop :=
  ∀ a v b, Part j a v b → a ≠ [] ∧ (∀ c ∈ a, c.toNat ≠ 0) ∧ (∀ n ∈ fixed, ¬ SameName a n) ∧
    ∀ a' v' b', Part j a' v' b' → SameName a a' → a = a' ∧ v = v' ∧ b = b'

/-- The entries of the file `versions`. -/
inductive Listed (j : Job) : Str × Str → Prop where
  | whole : Listed j ([], Guid.asMS (j.S.gen 0))
  | version : Listed j ("version".toList, Guid.asMS (j.S.gen 1))
  | versions : Listed j ("versions".toList, Guid.asMS (j.S.gen 2))
  | root : Listed j ("root".toList, Guid.asMS (j.S.gen 3))
  | part {a v b} : Part j a v b → Listed j (a, Guid.asMS v)

def number (n : Nat) : Tree.Node := .leaf .number (toString n).toList

/-- The trees of the three fixed files. -/
def versionTree (major minor : Nat) : Tree.Node := .list [.list [number major, number minor]]
def rootTree (rootobj : Bytes) : Tree.Node := .list [number 2, .leaf .guid (Guid.asMS rootobj)]
def versionsTree (l : List (Str × Str)) : Tree.Node :=
  .list (number 1 :: number l.length :: l.flatMap fun p => [.leaf .string p.1, .leaf .guid p.2])

/-- The text of a tree, with the mark of UTF-8 before it, compressed. -/
def packedText (S : Source) (t : Tree.Node) : Bytes :=
  S.deflate ([0xEF, 0xBB, 0xBF] ++ utf8Text (codes (Tree.outtext (.list [t]))))

/-- The files of the configuration; `l` is the list of versions. -/
inductive Holds (j : Job) (major minor : Nat) (rootobj : Bytes) (l : List (Str × Str)) : Str × Bytes → Prop where
  | part {a v b} : Part j a v b → Holds j major minor rootobj l (a, b)
  | version : Holds j major minor rootobj l ("version".toList, packedText j.S (versionTree major minor))
  | root : Holds j major minor rootobj l ("root".toList, packedText j.S (rootTree rootobj))
  | versions : Holds j major minor rootobj l ("versions".toList, packedText j.S (versionsTree l))

/-! ### The old format -/

/-- The objects of the version: name, identifier of the version, contents. -/
inductive Object (j : Job) : Str → Bytes → Bytes → Prop where
  | mk {r} : Depot.Spec.Newest j.ver j.hist r → Object j (Guid.asMS (j.S.objId r)) (j.S.objVer r) (j.objData r)

/-- Their external data. -/
inductive External (j : Job) : Str → Bytes → Bytes → Prop where
  | mk {r e} : Depot.Spec.Newest j.ver j.hist r → Depot.Spec.Belongs j.fold j.ver j.exts r e →
      External j (j.S.extName e) (j.S.extVer e) (j.extData e)

/-- Everything there is to read can be read, the objects unpacked, and nothing of it is empty. -/
def ReadableOld (j : Job) : Prop :=
  (∀ r, Depot.Spec.Newest j.ver j.hist r → j.S.objData true r = .ok (some (j.objData r)) ∧ j.objData r ≠ []) ∧
  ∀ r e, Depot.Spec.Newest j.ver j.hist r → Depot.Spec.Belongs j.fold j.ver j.exts r e →
    j.S.extData e = .ok (some (j.extData e)) ∧ j.extData e ≠ []

/-- The names of the entries every configuration of the old format has, beside the objects. -/
def fixedOld : List Str := ["metadata".toList, "version".toList, "versions".toList]

/-- The names of the objects can be told apart, whatever the case of their letters; so can those of the external data, none of which is empty, has a
NUL or is that of a fixed entry. An object and external data may have the same name. -/
def ApartOld (j : Job) : Prop :=
  (∀ a v b, Object j a v b → ∀ a' v' b', Object j a' v' b' → SameName a a' → a = a' ∧ v = v' ∧ b = b') ∧
  ∀ a v b, External j a v b → a ≠ [] ∧ (∀ c ∈ a, c.toNat ≠ 0) ∧ (∀ n ∈ fixedOld, ¬ SameName a n) ∧
    ∀ a' v' b', External j a' v' b' → SameName a a' → a = a' ∧ v = v' ∧ b = b'

/-- The entries of the file `versions`. -/
inductive ListedOld (j : Job) : Str × Str → Prop where
  | whole : ListedOld j ([], Guid.asMS (j.S.gen 0))
  | version : ListedOld j ("version".toList, Guid.asMS (j.S.gen 1))
  | versions : ListedOld j ("versions".toList, Guid.asMS (j.S.gen 2))
  | external {a v b} : External j a v b → ListedOld j (a, Guid.asMS v)

/-- The entries of the file `root`. -/
inductive Rooted (j : Job) : Str × Str → Prop where
  | object {a v b} : Object j a v b → Rooted j (a, Guid.asMS v)

def rootTreeOld (rootobj : Bytes) (l : List (Str × Str)) : Tree.Node :=
  .list (number 1 :: .leaf .guid (Guid.asMS rootobj) :: number l.length :: l.flatMap fun p => [.leaf .string p.1, .leaf .guid p.2])

/-- The files in the entry `metadata`; `l` is the list in `root`. -/
inductive HoldsMeta (j : Job) (rootobj : Bytes) (l : List (Str × Str)) : Str × Bytes → Prop where
  | object {a v b} : Object j a v b → HoldsMeta j rootobj l (a, b)
  | root : HoldsMeta j rootobj l ("root".toList, [0xEF, 0xBB, 0xBF] ++ utf8Text (codes (Tree.outtext (.list [rootTreeOld rootobj l]))))

/-- The files beside the entry `metadata`; `l` is the list of versions. -/
inductive HoldsOld (j : Job) (major minor : Nat) (l : List (Str × Str)) : Str × Bytes → Prop where
  | external {a v b} : External j a v b → HoldsOld j major minor l (a, b)
  | version : HoldsOld j major minor l ("version".toList, packedText j.S (versionTree major minor))
  | versions : HoldsOld j major minor l ("versions".toList, packedText j.S (versionsTree l))

/-- A container has exactly these entries, in this order: every name, in any case, gives the contents, and no other name gives anything. -/
def Keeps (fuel : Nat) (k : Container.Catalog) (fs : List (Str × Bytes)) : Prop :=
  k.ents.length = fs.length ∧
  (∀ (i : Nat) (e : Container.File) (p : Str × Bytes), k.ents[i]? = some e → fs[i]? = some p →
    ∃ z, e.name = utf8Text (codes p.1 ++ List.replicate z 0)) ∧
  (∀ p ∈ fs, ∀ n : Str, (∀ c ∈ n, c.toNat ≠ 0) → SameName p.1 n →
    Container.content Container.plainCodec fuel k (utf8Text (codes n)) = .ok (some (some p.2))) ∧
  (∀ n : Str, (∀ c ∈ n, c.toNat ≠ 0) → (∀ p ∈ fs, ¬ SameName p.1 n) →
    Container.content Container.plainCodec fuel k (utf8Text (codes n)) = .ok (some none))

/-- A bound on the length of the container. -/
def room (fs : List (Str × Bytes)) : Nat :=
  2 ^ 17 + 31 + max (2 ^ 16) (12 * fs.length) + (fs.map fun p => p.2.length + (utf16Text (codes p.1)).length + 86).sum

/-- The bytes of `6fdfdf78-062a-46bb-8402-62145ae55764`, the maker whose snapshots are not compressed. -/
def plainMaker : Bytes :=
  [0x78, 0xdf, 0xdf, 0x6f] ++ [0x2a, 0x06] ++ [0xbb, 0x46] ++ [0x84, 0x02] ++ [0x62, 0x14, 0x5a, 0xe5, 0x57, 0x64]

/-- What the snapshot unpacks to: it is compressed, unless it was made by `plainMaker` and that is not the root object. -/
def Unpacked (C : Cache) (rootobj maker s b : Bytes) : Prop :=
  if maker = plainMaker ∧ rootobj ≠ plainMaker then b = s else C.inflate s = (b, false)

/-- The snapshot of the version is there, and in order. -/
def Snapshot (C : Cache) (rootobj : Bytes) (ver : Int) (r : Row) (b : Bytes) : Prop :=
  r.maker ≠ List.replicate 16 0 ∧ ∃ s, C.file (snapName ver) = some s ∧ Unpacked C rootobj r.maker s b ∧ C.crc b = r.crc

end Verif.Depot.File.Spec
