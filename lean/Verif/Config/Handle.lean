import Verif.Config.Files
import Verif.Config.Select

/-!
# Opening a file of a configuration (src/tool1cd/ConfigStorage.cpp:216-374)

`lower` is `LowerCase`, and `EqualIC` compares lower-cased texts (property C11). `Table::readBlob` and
`ZInflateStream` are parameters (properties C16, C30): what they write into the stream they are given,
and whether they throw. Streams in memory and in temporary files are not told apart.
-/

namespace Verif.Config
open Verif

/-- `ContainerFile::isPacked` (ConfigStorage.cpp:351-374). `front` of an empty text is undefined. -/
def isPacked (lower : Str → Str) (name : Str) : Outcome Bool :=
  if lower name = lower "DynamicallyUpdated".toList then .ok false
  else if lower name = lower "SprScndInfo".toList then .ok false
  else if lower name = lower "DBNamesVersion".toList then .ok false
  else if lower name = lower "siVersions".toList then .ok false
  else match name with
    | [] => .ub
    | c :: _ =>
      if c = '{' then .ok false
      else if (rfind "fo_version".toList (lower name)).isSome then .ok false
      else match rfind ['.'] name with
        | none => .ok true
        | some i =>
          if lower (name.drop (i + 1)) = lower "INF".toList then .ok false
          else if lower (name.drop (i + 1)) = lower "PF".toList then .ok false
          else .ok true

/-- A stream: its contents and position. Serves the model of ConfigStorage.cpp:216-227. -/
structure Cell where
  data : Bytes
  pos : Nat
  deriving DecidableEq

/-- `ContainerFile` (ConfigStorage.cpp:216-227): the streams made so far (`none` is a deleted one), the pointers `stream` and
`rstream` among them, and `packed` (`none` is `unknown`). -/
structure Handle where
  heap : List (Option Cell)
  stream : Option Nat
  rstream : Option Nat
  packed : Option Bool
  deriving DecidableEq

/-- The constructor (ConfigStorage.cpp:216-227). -/
def Handle.init : Handle := ⟨[], none, none, none⟩

/-- What reading a blob and inflating do: the bytes written into the stream and whether the end is
reached (`false`: an exception). Serves the model of ConfigStorage.cpp:280-282, 328. -/
structure Io where
  blob : Nat → Nat → Bytes × Bool
  inflate : Bytes → Bytes × Bool

/-- `new TMemoryStream`. Serves the model of ConfigStorage.cpp:271-296. -/
def Handle.alloc (h : Handle) : Handle × Nat := ({ h with heap := h.heap ++ [some ⟨[], 0⟩] }, h.heap.length)

/-- A use of the stream at a pointer: undefined if it is deleted. Serves the model of ConfigStorage.cpp:280-282, 328. -/
def Handle.on (h : Handle) (p : Nat) (f : Cell → Cell) : Outcome Handle :=
  match h.heap[p]? with
  | some (some c) => .ok { h with heap := h.heap.set p (some (f c)) }
  | _ => .ub

/-- The contents of the stream at a pointer. Serves the model of ConfigStorage.cpp:285-288. -/
def Handle.data (h : Handle) (p : Nat) : Outcome Bytes :=
  match h.heap[p]? with
  | some (some c) => .ok c.data
  | _ => .ub

/-- `delete` of a pointer, which may be null. Serves the model of ConfigStorage.cpp:271-296. -/
def Handle.del (h : Handle) : Option Nat → Outcome Handle
  | none => .ok h
  | some p =>
    match h.heap[p]? with
    | some (some _) => .ok { h with heap := h.heap.set p none }
    | _ => .ub

/-- The loop over the parts (ConfigStorage.cpp:280-282, 328). -/
def blobs (io : Io) : List (Nat × Nat) → Bytes → Bytes × Bool
  | [], acc => (acc, true)
  | (s, l) :: ps, acc =>
    let r := io.blob s l
    if r.2 then blobs io ps (acc ++ r.1) else (acc ++ r.1, false)

/-- Both functions tell whether they came to the end (`false`: an exception went through), with the
state they leave. Serves the model of ConfigStorage.cpp:280-282, 328. -/
abbrev Done := Outcome (Handle × Bool)

/-- `packed` is found out once (ConfigStorage.cpp:257-259, 317). -/
def Handle.findPacked (lower : Str → Str) (name : Str) (h : Handle) : Outcome (Handle × Bool) :=
  match h.packed with
  | some b => .ok (h, b)
  | none => do
    let b ← isPacked lower name
    .ok ({ h with packed := some b }, b)

/-- Reading the parts into the stream at a pointer (ConfigStorage.cpp:280-282, 328). The stream is new: it is written from
its beginning. -/
def Handle.readInto (io : Io) (parts : List (Nat × Nat)) (h : Handle) (p : Nat) : Done := do
  let r := blobs io parts []
  let h ← h.on p (fun _ => ⟨r.1, r.1.length⟩)
  .ok (h, r.2)

/-- Inflating from one stream into another (ConfigStorage.cpp:285-288), which is new. -/
def Handle.inflateInto (io : Io) (h : Handle) (src dst : Nat) : Done := do
  let d ← h.data src
  let r := io.inflate d
  let h ← h.on src (fun c => { c with pos := c.data.length })
  let h ← h.on dst (fun _ => ⟨r.1, r.1.length⟩)
  .ok (h, r.2)

/-- Moving to the beginning of a stream. Serves the model of ConfigStorage.cpp:261-270, 285-296. -/
def Handle.rewind (h : Handle) (p : Nat) : Done := do
  let h ← h.on p (fun c => { c with pos := 0 })
  .ok (h, true)

/-- `open` from the raw stream there is (ConfigStorage.cpp:261-270, 285-296). -/
def Handle.openRaw (io : Io) (h : Handle) (b : Bool) (s r : Nat) : Done :=
  if b then do
    let x ← h.inflateInto io r s
    if x.2 then x.1.rewind s else .ok (x.1, false)
  else ({ h with stream := some r } : Handle).rewind r

/-- `open` with nothing read (ConfigStorage.cpp:271-296). -/
def Handle.openNew (io : Io) (parts : List (Nat × Nat)) (h : Handle) (b : Bool) (s : Nat) : Done :=
  if b then do
    let t := h.alloc
    let x ← t.1.readInto io parts t.2
    if x.2 then do
      let y ← x.1.inflateInto io t.2 s
      if y.2 then do
        let h ← y.1.del (some t.2)
        h.rewind s
      else .ok (y.1, false)
    else .ok (x.1, false)
  else do
    let x ← h.readInto io parts s
    if x.2 then x.1.rewind s else .ok (x.1, false)

/-- `ContainerFile::open` (ConfigStorage.cpp:236-298). -/
def Handle.open (lower : Str → Str) (io : Io) (name : Str) (parts : List (Nat × Nat)) (h : Handle) : Done :=
  match h.stream with
  | some p => h.rewind p
  | none => do
    let a := h.alloc
    let x ← ({ a.1 with stream := some a.2 } : Handle).findPacked lower name
    match x.1.rstream with
    | some r => x.1.openRaw io x.2 a.2 r
    | none => x.1.openNew io parts x.2 a.2

/-- The end of `ropen` (ConfigStorage.cpp:325-331). -/
def Handle.ropenNew (io : Io) (parts : List (Nat × Nat)) (h : Handle) : Done := do
  let a := h.alloc
  let x ← ({ a.1 with rstream := some a.2 } : Handle).readInto io parts a.2
  if x.2 then x.1.rewind a.2 else .ok (x.1, false)

/-- `ContainerFile::ropen` (ConfigStorage.cpp:301-333). -/
def Handle.ropen (lower : Str → Str) (io : Io) (name : Str) (parts : List (Nat × Nat)) (h : Handle) : Done :=
  match h.rstream with
  | some p => h.rewind p
  | none => do
    let x ← h.findPacked lower name
    match x.2, x.1.stream with
    | false, some p => ({ x.1 with rstream := some p } : Handle).rewind p
    | _, _ => x.1.ropenNew io parts

/-- The deletions in `close` (ConfigStorage.cpp:340-345). -/
def Handle.drop (h : Handle) : Outcome Handle :=
  if h.stream ≠ h.rstream then do
    let g ← h.del h.stream
    g.del h.rstream
  else h.del h.stream

/-- `ContainerFile::close` (ConfigStorage.cpp:336-348). -/
def Handle.close (h : Handle) : Outcome Handle := do
  let g ← h.drop
  .ok { g with stream := none, rstream := none }

end Verif.Config
