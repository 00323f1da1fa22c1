import Verif.Container.Close
import Verif.Unicode.Spec

/-!
# A container that is never closed (src/tool1cd/cfapi/V8Catalog.cpp, V8File.cpp)

Files are added to a container as `ConfigStorageTable::save_config` does it (ConfigStorage.cpp:540-549). Each is written to the stream of
the container at once; the directory only when the container is flushed or destroyed (V8Catalog.cpp:671-762). If the process ends before
that, what is left is the stream of the container as it is then.
-/

namespace Verif.Container
open Verif

/-- A file that is added: its name as code points, its times, the time of the clock, and its contents. Serves the model of ConfigStorage.cpp:540-549. -/
structure NewFile where
  name : List Nat
  created : Nat
  modified : Nat
  now : Nat
  body : Bytes
  deriving DecidableEq, Repr

/-- `createFile`, `set_time_create`, `set_time_modify` and `write_and_close` (ConfigStorage.cpp:540-549). -/
def addFile (cd : Codec) (fuel : Nat) (k : Catalog) (f : NewFile) : Outcome (Option Catalog) := do
  let x ← createFile k (Unicode.Spec.utf8Text f.name) f.now
  let y := setTimes x.2 x.1 f.created f.modified
  writeAndClose cd fuel y.2 y.1 f.body

/-- One file after the other (ConfigStorage.cpp:530-551). -/
def addFiles (cd : Codec) (fuel : Nat) : Catalog → List NewFile → Outcome (Option Catalog)
  | k, [] => .ok (some k)
  | k, f :: fs => do
    match ← addFile cd fuel k f with
    | none => .ok none
    | some k => addFiles cd fuel k fs

/-- The stream of the container, if the process ends without the destructors (V8Catalog.cpp:671-762 does not run). -/
def leftBehind (k : Catalog) : Bytes := k.cat.data.data

end Verif.Container
