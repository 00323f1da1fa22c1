import Verif.Config.Files
import Verif.Base64.Model
import Verif.Hex.Model
import Verif.Guid.Model
import Verif.Tree.Model
import Verif.Cli.Model

/-!
# Configurations stored by the hashes of their files (src/tool1cd/ConfigStorage.cpp:856-1124)

`lower` is `LowerCase`, and `EqualIC` compares lower-cased texts (property C11). The text of a file,
its unpacking and parsing are a parameter (`read`; properties C16, C41, C49).
-/

namespace Verif.Config
open Verif

/-- The bytes of a text that has one byte for each character. Serves the model of ConfigStorage.cpp:943-946, 1102-1105. -/
def raw (s : Str) : Bytes := s.map (fun c => UInt8.ofNat c.toNat)

/-- `ContainerFile` as far as it matters here: the name it is given and the file it stands for. Serves the model of ConfigStorage.cpp:917-960. -/
structure Named where
  name : Str
  file : TFile
  deriving DecidableEq

/-- From the root of the parsed `configinfo` to the list of files (ConfigStorage.cpp:885-914, 1040-1069): the third
value, which has to be a list with a first element. The result is the text of that element and the
values after it. -/
def infoItems (tt : Tree.Node) : Outcome (Str × List Tree.Node) :=
  match tt.kids with
  | _ :: _ :: c :: _ =>
    match c.kids with
    | [] => .throw
    | n :: rest => .ok (n.value, rest)
  | _ => .throw

/-- The name of the file of a hash (ConfigStorage.cpp:943-946, 1102-1105). The stream is not cut before the hash is
written into it: behind a hash shorter than the one before stands the rest of that. -/
def hashBytes (buf : Bytes) (text : Str) : Bytes :=
  let d := Base64.decodeString (raw text) 0
  d ++ buf.drop d.length

/-- The loop over names and hashes (ConfigStorage.cpp:917-960). The counter runs down to 0; a negative one runs until
there are no values left. (That it could pass the smallest `int` before is left out: there would
have to be 2^32 values.) -/
def casLoop (lower : Str → Str) (tab : List (Str × TFile)) : Int → List Tree.Node → Bytes → List (Str × Named) → Outcome (List (Str × Named))
  | m, nodes, buf, out =>
    if m = 0 then .ok out
    else match nodes with
      | [] => .throw
      | [_] => .throw
      | n :: h :: rest =>
        if n.type ≠ .string then .throw
        else if h.type ≠ .binary2 then .throw
        else match getFile lower tab (Hex.hexstring (hashBytes buf h.value)) with
          | none => .throw
          | some f => casLoop lower tab (m - 1) rest (hashBytes buf h.value) (upd out (lower n.value) (fun _ => ⟨n.value, f⟩))

/-- `ConfigStorageTableConfigCas` (ConfigStorage.cpp:856-964). -/
def configCas (lower : Str → Str) (read : TFile → Outcome Tree.Node) (tab : List (Str × TFile)) (configver : Str) : Outcome (List (Str × Named)) :=
  match getFile lower tab configver with
  | none => .throw
  | some f => do
    let tt ← read f
    let items ← infoItems tt
    let m ← Cli.toIntDef (raw items.1) 0
    casLoop lower tab m items.2 [] [("configinfo".toList, ⟨"configinfo".toList, f⟩)]

/-! ## The configuration being saved -/

/-- `tf->name.substr(len, tf->name.size() - len - 1)` (ConfigStorage.cpp:1003), in `size_t`. -/
def savedName (len : Nat) (name : Str) : Outcome Str :=
  if name.length < len then .throw
  else .ok (if name.length = len then [] else (name.drop len).take (name.length - len - 1))

/-- The loop over the files of the table (ConfigStorage.cpp:999-1009): the files found and the one called
`configinfo`. -/
def savedLoop (lower : Str → Str) (struid : Str) : List (Str × TFile) → List (Str × Named) → Option Named → Outcome (List (Str × Named) × Option Named)
  | [], out, info => .ok (out, info)
  | (key, tf) :: tab, out, info =>
    if lower (key.take struid.length) = lower struid then do
      let name ← savedName struid.length tf.name
      savedLoop lower struid tab (upd out (lower name) (fun _ => ⟨name, tf⟩))
        (if lower name = lower "configinfo".toList then some ⟨name, tf⟩ else info)
    else savedLoop lower struid tab out info

/-- The loop over names and hashes (ConfigStorage.cpp:1072-1119): a name that is there already is skipped together with
the value after it, if there is one. -/
def casSaveLoop (lower : Str → Str) (tab : List (Str × TFile)) : Int → List Tree.Node → Bytes → List (Str × Named) → Outcome (List (Str × Named))
  | m, nodes, buf, out =>
    if m = 0 then .ok out
    else match nodes with
      | [] => .throw
      | [n] =>
        if n.type ≠ .string then .throw
        else if (find out (lower n.value)).isSome then (if m - 1 = 0 then .ok out else .ub)
        else .throw
      | n :: h :: rest =>
        if n.type ≠ .string then .throw
        else if (find out (lower n.value)).isSome then casSaveLoop lower tab (m - 1) rest buf out
        else if h.type ≠ .binary2 then .throw
        else match getFile lower tab (Hex.hexstring (hashBytes buf h.value)) with
          | none => .throw
          | some f => casSaveLoop lower tab (m - 1) rest (hashBytes buf h.value) (upd out (lower n.value) (fun _ => ⟨n.value, f⟩))

/-- The file with the list of files (ConfigStorage.cpp:1012-1036): the one of the table of saved files, or, if that has
no files of this configuration, the stored one. -/
def savedInfo (lower : Str → Str) (tab : List (Str × TFile)) (configver : Str) (out : List (Str × Named)) : Option Named → Outcome (List (Str × Named) × TFile)
  | some n => .ok (out, n.file)
  | none =>
    if out.isEmpty then
      match getFile lower tab configver with
      | none => .throw
      | some f => .ok ([("configinfo".toList, ⟨"configinfo".toList, f⟩)], f)
    else .throw

/-- `ConfigStorageTableConfigCasSave` (ConfigStorage.cpp:977-1123). -/
def configCasSave (lower : Str → Str) (read : TFile → Outcome Tree.Node) (tab saved : List (Str × TFile)) (uid : Bytes) (configver : Str) :
    Outcome (List (Str × Named)) := do
  let s ← savedLoop lower (Guid.as1C uid ++ "__".toList) saved [] none
  let p ← savedInfo lower tab configver s.1 s.2
  let tt ← read p.2
  let items ← infoItems tt
  let m ← Cli.toIntDef (raw items.1) 0
  casSaveLoop lower tab m items.2 [] p.1

end Verif.Config
