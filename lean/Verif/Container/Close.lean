import Verif.Container.Open

/-!
# Containers: writing an entry at once, and closing (src/tool1cd/cfapi/V8File.cpp:490-575, V8Catalog.cpp:208-243, 671-762)

The stream of a container in a file is taken to behave like the memory stream of `Verif.Container`.
-/

namespace Verif.Container
open Verif Verif.Stream

/-- `V8Catalog::V8Catalog(const string&, bool)` (V8Catalog.cpp:208-243): a file that is not there (`none`) is made a
blank container first; one that is there is opened as it is. -/
def openNamed (fuel : Nat) (old : Option Bytes) : Outcome (Option Opening) :=
  let d := match old with
    | none => template
    | some d => d
  do if ← isCatalog d then initCatalog fuel d else .ok (some .other)

/-- `set_time_create` and `set_time_modify` (V8File.cpp:75-90), the times as 64-bit patterns. The entry is changed, and neither
flag is set. -/
def setTimes (k : Catalog) (e : File) (created modified : Nat) : File × Catalog :=
  let e := { e with created := created, modified := modified }
  (e, { k with ents := update k.ents e })

/-- The second half of `write_and_close` (V8File.cpp:556-563): the header, and the end. -/
def writeEnd (fuel : Nat) (k : Catalog) (c : Cat) (e : File) : Outcome (Option Catalog) := do
  let h ← Entry.headerBytes e.created e.modified e.name
  match ← writeBlock fuel c ⟨h, h.length⟩ e.header false none with
  | none => .ok none
  | some (c, a) =>
    .ok (some { k with cat := c, ents := update k.ents { e with header := a, content := none, dataMod := false, headerMod := false } })

/-- `V8File::write_and_close` (V8File.cpp:533-575) of a whole stream: the entry is opened, so its old contents are read; its
contents and header are written whatever has changed. -/
def writeAndClose (cd : Codec) (fuel : Nat) (k : Catalog) (e : File) (b : Bytes) : Outcome (Option Catalog) := do
  match ← openFile cd fuel k.cat e with
  | none => .ok none
  | some e => do
    let p ← cd.pack b
    match ← writeBlock fuel k.cat ⟨p, 0⟩ e.data false none with
    | none => .ok none
    | some (c, a) => writeEnd fuel k c { e with data := a }

/-- `V8File::close` (V8File.cpp:491-529): as `flush`, and the stream is gone. -/
def closeFile (cd : Codec) (fuel : Nat) (c : Cat) (e : File) : Outcome (Option (Cat × File)) := do
  match ← flushFile cd fuel c e with
  | none => .ok none
  | some (c, e) => .ok (some (c, { e with content := none }))

/-- The loop over the entries (V8Catalog.cpp:681-686). -/
def closeFiles (cd : Codec) (fuel : Nat) : Cat → List File → List File → Outcome (Option (Cat × List File))
  | c, done, [] => .ok (some (c, done))
  | c, done, e :: rest => do
    match ← closeFile cd fuel c e with
    | none => .ok none
    | some (c, e) => closeFiles cd fuel c (done ++ [e]) rest

/-- `V8Catalog::~V8Catalog` (V8Catalog.cpp:671-762) of a catalog that is not inside an entry: the bytes left in the stream. What is
thrown while the directory is written is caught in the code; here it is shown as an exception. -/
def destroy (cd : Codec) (fuel : Nat) (k : Catalog) : Outcome (Option Bytes) := do
  match ← closeFiles cd fuel k.cat [] k.ents with
  | none => .ok none
  | some (c, ents) => do
    match ← flushFat fuel c ents k.fatMod with
    | none => .ok none
    | some c => do
      let (c, _) ← flushHead c k.ver
      .ok (some c.data.data)

end Verif.Container
