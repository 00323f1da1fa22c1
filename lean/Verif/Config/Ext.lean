import Verif.Config.Chain
import Verif.Config.Cas

/-!
# The configuration of an extension, from its table to a container file

`T_1CD::save_config_ext_db` and `T_1CD::save_config_ext` (src/tool1cd/Class_1CD.cpp:2251-2272): the constructors
`ConfigStorageTableConfigCas` and `ConfigStorageTableConfigCasSave` (ConfigStorage.cpp:856-1123) over the files of the tables, and
`save_config` (516-554) over what they found. Simplifications: those of the configuration of a database (Chain.lean).
-/

namespace Verif.Config
open Verif

/-- `configinfo`. Serves the model of ConfigStorage.cpp:880-884, 1036-1040. -/
def infoName : Str := "configinfo".toList

/-- `configinfo->open()` and `parse_1Cstream` (ConfigStorage.cpp:880-884, 1036-1040): the file as it is then, and the tree. -/
def readInfo (a : Around) (io : Io) (f : TFile) : Outcome (Handle × Tree.Node) := do
  let x ← Handle.init.open lowerText io infoName f.addr
  if x.2 then do
    let d ← streamData x.1
    let tt ← a.parse d
    .ok (x.1, tt)
  else .throw

/-- The tree alone. Serves the model of Class_1CD.cpp:2263-2272. -/
def infoTree (a : Around) (io : Io) (f : TFile) : Outcome Tree.Node := do
  let x ← readInfo a io f
  .ok x.2

/-- The `ContainerFile` of a name (ConfigStorage.cpp:216-227). That of the list itself has been opened. A file listed under the very name of the list and
stored at the same place is not told apart from it. -/
def extHandle (a : Around) (io : Io) (n : Named) (info : Option TFile) : Handle :=
  if info = some n.file ∧ n.name = infoName then
    (match readInfo a io n.file with
    | .ok x => x.1
    | _ => Handle.init)
  else Handle.init

/-- The files of the configuration as `save_config` walks them. Serves the model of Class_1CD.cpp:2263-2272. -/
def extItems (a : Around) (io : Io) (info : Option TFile) : List (Str × Named) → Outcome (List Item)
  | [] => .ok []
  | p :: l => do
    let n ← nameText p.2.name
    let r ← extItems a io info l
    .ok (⟨n, p.2.file.addr, .ofInt p.2.file.created, .ofInt p.2.file.modified, extHandle a io p.2 info⟩ :: r)

/-- `T_1CD::save_config_ext_db` (Class_1CD.cpp:2263-2272): the result and the file of the given name after it. -/
def exportExtDb (a : Around) (fuel : Nat) (tab : Option (List Col × Record.Tab × Option Bytes)) (ver : Str) (old : Option Bytes) :
    Outcome (Option (Bool × Option Bytes)) :=
  match tab with
  | none => .ok (some (false, old))
  | some (cols, t, blob) => do
    let o ← openStore ⟨a.sh, lowerStr, a.clock⟩ (some (cols, t))
    let io := blobIo blob fuel a.inflate
    let m ← configCas lowerStr (infoTree a io) o.2 ver
    let its ← extItems a io (getFile lowerStr o.2 ver) (byKey m)
    let r ← saveConfig ⟨lowerText, io, a.stamp, a.now⟩ fuel o.1 old its
    .ok (r.map (fun x => (x.1, x.2.1)))

/-- `T_1CD::save_config_ext` (Class_1CD.cpp:2251-2260): the same from the table of stored and that of saved files, for an extension of
which nothing is saved. Not modelled: the files of saved extensions, whose data is in the other table (`none`). The files of the
map are walked in the order of their keys. -/
def exportExt (a : Around) (fuel : Nat) (tab : Option (List Col × Record.Tab × Option Bytes)) (saved : Option (List Col × Record.Tab))
    (uid : Bytes) (ver : Str) (old : Option Bytes) : Outcome (Option (Bool × Option Bytes)) :=
  match tab, saved with
  | none, _ => .ok (some (false, old))
  | some (cols, t, _), none => do
    let _ ← openStore ⟨a.sh, lowerStr, a.clock⟩ (some (cols, t))
    .ok (some (false, old))
  | some (cols, t, blob), some s => do
    let o ← openStore ⟨a.sh, lowerStr, a.clock⟩ (some (cols, t))
    let p ← openStore ⟨a.sh, lowerStr, a.clock⟩ (some s)
    let io := blobIo blob fuel a.inflate
    let x ← savedLoop lowerStr (Guid.as1C uid ++ "__".toList) (byKey p.2) [] none
    if x.1.isEmpty then do
      let m ← configCasSave lowerStr (infoTree a io) o.2 (byKey p.2) uid ver
      let its ← extItems a io (getFile lowerStr o.2 ver) (byKey m)
      let r ← saveConfig ⟨lowerText, io, a.stamp, a.now⟩ fuel o.1 old its
      .ok (r.map (fun x => (x.1, x.2.1)))
    else .ok none

end Verif.Config
