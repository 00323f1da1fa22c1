import Verif.Container.Close

/-!
# Containers inside the entries of containers (src/tool1cd/cfapi/V8File.cpp, V8Catalog.cpp)

An entry that holds a container may have the container opened in it (`V8File::self`). The stream of the inner container is the
stream of the entry; here the inner container has the stream, and the entry gets its bytes back (`putBack`) when the inner one is flushed or
destroyed. Inner containers are not packed (V8Catalog.cpp:282). The answer of `V8File::is_catalog`, which is kept in `iscatalog` until the entry is
closed, is asked for again each time an entry without `self` is met. Locks are not modelled.
-/

namespace Verif.Nested
open Verif Verif.Stream Verif.Container

/-- The pointers `self` of the entries of a container, in the order of the chain: null, or the open inner container, with the pointers
of its entries. Serves the model of V8File.cpp:55. -/
inductive Subs where
  | nil
  | none (rest : Subs)
  | some (k : Catalog) (inner : Subs) (rest : Subs)
  deriving DecidableEq, Repr

namespace Subs

/-- All null. Serves the model of V8File.cpp:55. -/
def blank : Nat → Subs
  | 0 => nil
  | n + 1 => none (blank n)

/-- New entries are at the end, with `self` null (V8File.cpp:55). -/
def grow (n : Nat) : Subs → Subs
  | nil => blank n
  | none r => none (grow n r)
  | some k i r => some k i (grow n r)

/-- The pointer of the entry at this place. Serves the model of V8File.cpp:387-405. -/
def get : Nat → Subs → Option (Catalog × Subs)
  | 0, some k i _ => .some (k, i)
  | n + 1, none r => get n r
  | n + 1, some _ _ r => get n r
  | _, _ => .none

/-- The pointer of the entry at this place is set. Serves the model of V8File.cpp:387-405. -/
def set : Subs → Nat → Catalog → Subs → Subs
  | none r, 0, k, i => some k i r
  | some _ _ r, 0, k, i => some k i r
  | none r, n + 1, k, i => none (set r n k i)
  | some k' i' r, n + 1, k, i => some k' i' (set r n k i)
  | nil, _, _, _ => nil

/-- The entry at this place leaves the chain. Serves the model of V8File.cpp:413-462. -/
def drop : Nat → Subs → Subs
  | 0, none r => r
  | 0, some _ _ r => r
  | n + 1, none r => none (drop n r)
  | n + 1, some k i r => some k i (drop n r)
  | _, nil => nil

end Subs

/-- An open container and the pointers of its entries. Serves the model of V8File.cpp:387-405. -/
structure Node where
  k : Catalog
  subs : Subs
  deriving DecidableEq, Repr

/-- The place of an entry in the chain. Serves the model of V8File.cpp:387-405. -/
def place (k : Catalog) (e : File) : Nat := k.ents.findIdx fun x => x.id = e.id

/-- `V8File::get_catalog` (V8File.cpp:387-405) on the entry `e`, with the constructor `V8Catalog(V8File*)` (V8Catalog.cpp:275-301): the inner container
and the outer one; no inner one if the entry is none. `ok none`: a loop did not end, or the directory of the inner container
could not be read. -/
def getCatalog (cd : Codec) (fuel : Nat) (n : Node) (e : File) : Outcome (Option (Option Node × Node)) :=
  match n.subs.get (place n.k e) with
  | some (k, i) => .ok (some (some ⟨k, i⟩, n))
  | none => do
    match ← openFile cd fuel n.k.cat e with
    | none => .ok none
    | some e => do
      let k := { n.k with ents := update n.k.ents e }
      if ← isCatalog (e.content.getD []) then
        match ← initCatalog fuel (e.content.getD []) with
        | some (.container ki) =>
          .ok (some (some ⟨ki, .blank ki.ents.length⟩, ⟨k, n.subs.set (place k e) ki (.blank ki.ents.length)⟩))
        | _ => .ok none
      else .ok (some (none, ⟨k, n.subs⟩))

/-- `createFile` (V8Catalog.cpp:421-441): a new entry has no inner container. -/
def create (n : Node) (name : Bytes) (now : Nat) : Outcome (File × Node) := do
  let (e, k) ← createFile n.k name now
  .ok (e, ⟨k, n.subs.grow (k.ents.length - n.k.ents.length)⟩)

/-- `get_file_length() > 0` (V8File.cpp:131-141): the stream of an entry with an inner container is that container's. -/
def hasLength (cd : Codec) (fuel : Nat) (n : Node) (e : File) : Outcome (Option Bool) :=
  match n.subs.get (place n.k e) with
  | some (k, _) => .ok (some (decide (k.cat.data.data.length > 0)))
  | none => do
    match ← openFile cd fuel n.k.cat e with
    | none => .ok none
    | some e => .ok (some (decide ((e.content.getD []).length > 0)))

/-- The two cases of `CreateCatalog` (V8Catalog.cpp:778-787). The entry is opened by `get_file_length`; that it stays open has no effect
but on `getCatalog` and `writeFile`, which open it otherwise. -/
def makeCatalog (cd : Codec) (fuel : Nat) (n : Node) (e : File) (now : Nat) (filled : Bool) : Outcome (Option (Option Node × Node)) :=
  if filled then getCatalog cd fuel n e
  else do
    match ← writeFile cd fuel n.k e template now with
    | none => .ok none
    | some k =>
      match k.ents.find? (fun x => x.id = e.id) with
      | none => .ub
      | some e => getCatalog cd fuel ⟨k, n.subs⟩ e

/-- `V8Catalog::CreateCatalog` (V8Catalog.cpp:773-790) at time `now`: the place of the entry, its container if it has one, and the outer container. -/
def createCatalog (cd : Codec) (fuel : Nat) (n : Node) (name : Bytes) (now : Nat) : Outcome (Option (Nat × Option Node × Node)) := do
  let (e, n) ← create n name now
  match ← hasLength cd fuel n e with
  | none => .ok none
  | some filled => do
    match ← makeCatalog cd fuel n e now filled with
    | none => .ok none
    | some (i, n) => .ok (some (place n.k e, i, n))

/-- Storing under a name of an open container: `createFile`, then `V8File::write`. The entry is not one with an inner container. Built on V8File.cpp:387-405. -/
def putHere (cd : Codec) (fuel : Nat) (n : Node) (name b : Bytes) (now : Nat) : Outcome (Option Node) := do
  match ← put cd fuel n.k name b now with
  | none => .ok none
  | some k => .ok (some ⟨k, n.subs.grow (k.ents.length - n.k.ents.length)⟩)

/-- A user stores a content at the end of a path, calling `CreateCatalog` for each name of it; the inner containers stay open. `ok none` also if
the path leads through an entry that is no container. Built on V8Catalog.cpp:773-790. -/
def storeAt (fuel : Nat) (name b : Bytes) (now : Nat) : Codec → Node → List Bytes → Outcome (Option Node)
  | cd, n, [] => putHere cd fuel n name b now
  | cd, n, d :: ds => do
    match ← createCatalog cd fuel n d now with
    | some (i, some inner, n) => do
      match ← storeAt fuel name b now plainCodec inner ds with
      | none => .ok none
      | some inner => .ok (some { n with subs := n.subs.set i inner.k inner.subs })
    | _ => .ok none

/-- A user reads what is at the end of a path, with `get_file` and `get_catalog` for each name of it. Built on V8File.cpp:387-405. -/
def readAt (fuel : Nat) (name : Bytes) : Codec → Node → List Bytes → Outcome (Option (Option Bytes))
  | cd, n, [] => content cd fuel n.k name
  | cd, n, d :: ds => do
    match ← Container.getFile n.k d with
    | none => .ok (some none)
    | some e => do
      match ← getCatalog cd fuel n e with
      | some (some inner, _) => readAt fuel name plainCodec inner ds
      | some (none, _) => .ok (some none)
      | none => .ok none

/-- The names a user meets at the end of a path, with `get_file` and `get_catalog` for each name of it, then `get_first_file`, `get_next` and
`get_file_name`. Built on V8File.cpp:387-405. -/
def listAt (fuel : Nat) : Codec → Node → List Bytes → Outcome (Option (Option (List Bytes)))
  | _, n, [] => .ok (some (some (n.k.ents.map (·.name))))
  | cd, n, d :: ds => do
    match ← Container.getFile n.k d with
    | none => .ok (some none)
    | some e => do
      match ← getCatalog cd fuel n e with
      | some (some inner, _) => listAt fuel plainCodec inner ds
      | some (none, _) => .ok (some none)
      | none => .ok none

/-- `V8File::delete_file` (V8File.cpp:413-462) of what is found under a name. An open inner container is destroyed without its stream
(`erase_data`), so that it and its entries write nothing. -/
def removeHere (fuel : Nat) (n : Node) (name : Bytes) : Outcome (Option Node) := do
  match ← Container.getFile n.k name with
  | none => .ok (some n)
  | some e => do
    match ← deleteFile fuel n.k e with
    | none => .ok none
    | some k => .ok (some ⟨k, n.subs.drop (place n.k e)⟩)

/-- A user removes what is at the end of a path, with `get_file` and `get_catalog` for each name of it. Built on V8File.cpp:413-462. -/
def removeAt (fuel : Nat) (name : Bytes) : Codec → Node → List Bytes → Outcome (Option Node)
  | _, n, [] => removeHere fuel n name
  | cd, n, d :: ds => do
    match ← Container.getFile n.k d with
    | none => .ok (some n)
    | some e => do
      match ← getCatalog cd fuel n e with
      | some (some inner, n) => do
        match ← removeAt fuel name plainCodec inner ds with
        | none => .ok none
        | some inner => .ok (some { n with subs := n.subs.set (place n.k e) inner.k inner.subs })
      | some (none, n) => .ok (some n)
      | none => .ok none

/-! ## Flushing and closing -/

/-- What inner containers leave in the streams of the entries, and `file->set_data_modified(true)` if they changed
(V8Catalog.cpp:731-734, 875-878). -/
def putBack : List File → List (Option (Bytes × Bool)) → List File
  | e :: es, some (b, m) :: bs => { e with content := some b, dataMod := e.dataMod || m } :: putBack es bs
  | e :: es, none :: bs => e :: putBack es bs
  | es, _ => es

/-- The inner containers are flushed (`if(self) self->Flush()`, V8File.cpp:651): the containers, and what they leave. `is_modified` was
set exactly if the version was counted up (V8Catalog.cpp:868-873). In the code each is flushed just before its
entry; no stream is shared between them. -/
def flushSubs (fuel : Nat) : Subs → Outcome (Option (Subs × List (Option (Bytes × Bool))))
  | .nil => .ok (some (.nil, []))
  | .none r => do
    match ← flushSubs fuel r with
    | none => .ok none
    | some (r, bs) => .ok (some (.none r, none :: bs))
  | .some k i r => do
    match ← flushSubs fuel i with
    | none => .ok none
    | some (i, bi) => do
      match ← flush plainCodec fuel { k with ents := putBack k.ents bi } with
      | none => .ok none
      | some k' => do
        match ← flushSubs fuel r with
        | none => .ok none
        | some (r, bs) => .ok (some (.some k' i r, some (k'.cat.data.data, decide (k'.ver ≠ k.ver)) :: bs))

/-- `V8Catalog::Flush` (V8Catalog.cpp:824-899) with inner containers. -/
def flushNode (cd : Codec) (fuel : Nat) (n : Node) : Outcome (Option Node) := do
  match ← flushSubs fuel n.subs with
  | none => .ok none
  | some (su, bs) => do
    match ← flush cd fuel { n.k with ents := putBack n.k.ents bs } with
    | none => .ok none
    | some k => .ok (some ⟨k, su⟩)

/-- `V8Catalog::~V8Catalog` (V8Catalog.cpp:671-762): the bytes left, and `is_modified`. -/
def destroyMarked (cd : Codec) (fuel : Nat) (k : Catalog) : Outcome (Option (Bytes × Bool)) := do
  match ← closeFiles cd fuel k.cat [] k.ents with
  | none => .ok none
  | some (c, ents) => do
    match ← flushFat fuel c ents k.fatMod with
    | none => .ok none
    | some c => do
      let (c', _) ← flushHead c k.ver
      .ok (some (c'.data.data, c.modified))

/-- The inner containers are destroyed when their entries are closed (V8File.cpp:495-498); the call of `close` from there
(V8Catalog.cpp:735) finds the container being destructed and closes the entry, and the first call finds nothing left to do. -/
def destroySubs (fuel : Nat) : Subs → Outcome (Option (List (Option (Bytes × Bool))))
  | .nil => .ok (some [])
  | .none r => do
    match ← destroySubs fuel r with
    | none => .ok none
    | some bs => .ok (some (none :: bs))
  | .some k i r => do
    match ← destroySubs fuel i with
    | none => .ok none
    | some bi => do
      match ← destroyMarked plainCodec fuel { k with ents := putBack k.ents bi } with
      | none => .ok none
      | some x => do
        match ← destroySubs fuel r with
        | none => .ok none
        | some bs => .ok (some (some x :: bs))

/-- The outermost container is destroyed: the bytes left in its stream. Built on V8File.cpp:495-498. -/
def destroyNode (cd : Codec) (fuel : Nat) (n : Node) : Outcome (Option Bytes) := do
  match ← destroySubs fuel n.subs with
  | none => .ok none
  | some bs => destroy cd fuel { n.k with ents := putBack n.k.ents bs }

/-- Closing everything, and opening the stream again. Built on V8File.cpp:387-405. -/
def reopenNode (cd : Codec) (fuel : Nat) (n : Node) : Outcome (Option Node) := do
  match ← destroyNode cd fuel n with
  | none => .ok none
  | some d => do
    match ← openCatalog fuel d with
    | some (.container k) => .ok (some ⟨k, .blank k.ents.length⟩)
    | _ => .ok none

end Verif.Nested
