import Verif.Config.Select
import Verif.Config.Cas

/-!
# The configuration being edited (src/tool1cd/ConfigStorage.cpp:695-844) and lists of identifiers
(1132-1167)

`lower` is `LowerCase`, and `EqualIC` compares lower-cased texts (property C11). The text of a file,
its unpacking and parsing are a parameter (`read`; properties C16, C41, C49).
-/

namespace Verif.Config
open Verif

/-- The loop over the identifiers (ConfigStorage.cpp:1160-1163): a missing one is a null pointer. -/
def guidLoop : Nat → List Tree.Node → Outcome (List Bytes)
  | 0, _ => .ok []
  | _ + 1, [] => .ub
  | n + 1, k :: ks => do
    let g ← Guid.ofText k.value
    let gs ← guidLoop n ks
    .ok (g :: gs)

/-- `parse_dynamically_updated_tree` (ConfigStorage.cpp:1132-1167). Reserving room for a negative number of identifiers
(1157) throws. -/
def guidList (tt : Tree.Node) : Outcome (List Bytes) :=
  match tt.kids with
  | [] => .throw
  | c :: _ =>
    match c.kids with
    | _ :: n :: rest =>
      if n.type ≠ .number then .throw
      else do
        let k ← Cli.toIntDef (raw n.value) 0
        if k < 0 then .throw else guidLoop k.toNat rest
    | _ => .throw

/-- Reading such a list from a file of the table, if there is one (ConfigStorage.cpp:721-736, 745-760). -/
def guidsOf (lower : Str → Str) (read : TFile → Outcome Tree.Node) (tab : List (Str × TFile)) (name : Str) : Outcome (List Bytes) :=
  match getFile lower tab name with
  | none => .ok []
  | some f => do
    let tt ← read f
    guidList tt

/-- The files looked at (ConfigStorage.cpp:766-767, 785-786): not the one with the list, and not those whose first part
is empty. -/
def taken (lower : Str → Str) (list : Str) (p : Str × TFile) : Bool :=
  p.1 ≠ lower list && ((p.2.addr.head?.map (·.2)).getD 0) ≠ 0

/-- The loop over the saved files (ConfigStorage.cpp:764-781). -/
def savedFiles (lower : Str → Str) (rank : Int) : List (Str × TFile) → List (Str × Chosen TFile) → Outcome (List (Str × Chosen TFile))
  | [], m => .ok m
  | (_, f) :: fs, m =>
    if (find m (lower f.name)).isSome then .throw
    else savedFiles lower rank fs (upd m (lower f.name) (fun _ => ⟨f.name, f, rank⟩))

/-- `s.find(pat)`: the first position. Serves the model of ConfigStorage.cpp:808-820. -/
def findFirst (pat s : Str) : Option Nat := (List.range (s.length + 1)).find? (startsAt pat s)

/-- `s.substr(ConfigStorage.cpp:0, m - 1)` in `size_t`. -/
def cutTo (s : Str) (m : Nat) : Str := if m = 0 then s else s.take (m - 1)

/-- Name and extension (ConfigStorage.cpp:792-801). -/
def saveExt (s : Str) : Str × Str :=
  match rfind ['.'] s with
  | some m => (cutTo s m, s.drop (m + 1))
  | none => (s, [])

/-- The part of a name before the update mark, the number of the update and the identifier
(ConfigStorage.cpp:808-820). A text that is no identifier leaves the one of an earlier file. -/
def saveUpdate (dynup : List Bytes) (name : Str) (dynno : Int) (g : Bytes) : Str × Int × Bytes :=
  match findFirst dynMark name with
  | some m =>
    let g := (Guid.stringToGuid (name.drop (m + 11)) g).2
    (cutTo name m, position dynup g, g)
  | none => (name, dynno, g)

/-- What a stored name stands for (ConfigStorage.cpp:787-825): the name of the file, the number of the variant, and the
identifier read last. -/
def saveVariant (lower : Str → Str) (dynup : List Bytes) (g : Bytes) (s : Str) : Str × Int × Bytes :=
  let p := saveExt s
  let isNew := lower p.2 = lower "new".toList
  let r := saveUpdate dynup p.1 (if isNew then dynup.length + 1 else -1) g
  (if isNew ∨ p.2.isEmpty then r.1 else r.1 ++ '.' :: p.2, r.2.1, r.2.2)

/-- The loop over the stored files (ConfigStorage.cpp:783-842). -/
def storedFiles (lower : Str → Str) (dynup : List Bytes) (del : List Str) : List (Str × TFile) → Bytes → List (Str × Chosen TFile) → List (Str × Chosen TFile)
  | [], _, m => m
  | (_, f) :: fs, g, m =>
    if lower f.name ∈ del then storedFiles lower dynup del fs g m
    else
      let v := saveVariant lower dynup g f.name
      storedFiles lower dynup del fs v.2.2 (upd m (lower v.1) (choose v.1 f v.2.1))

/-- `ConfigStorageTableConfigSave` (ConfigStorage.cpp:695-844). -/
def configSave (lower : Str → Str) (read : TFile → Outcome Tree.Node) (stored saved : List (Str × TFile)) : Outcome (List (Str × Chosen TFile)) := do
  let gone ← guidsOf lower read saved "deleted".toList
  let dynup ← guidsOf lower read stored "DynamicallyUpdated".toList
  let m ← savedFiles lower (dynup.length + 2) (saved.filter (taken lower "deleted".toList)) []
  .ok (storedFiles lower dynup (gone.map (fun g => lower (Guid.asMS g))) (stored.filter (taken lower "DynamicallyUpdated".toList)) Guid.empty m)

end Verif.Config
