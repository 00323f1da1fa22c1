import Verif.Basic

/-!
# Lists and values in the graphical program (src/gtool1cd)

Of Qt: `QTextStream::readLine` ends a line at a line feed, drops a carriage return before it, and gives a null text at the end;
`QString::number` with two digits is not modelled, the value it gets is.
-/

namespace Verif.View
open Verif

/-! ## The files of a container (models/v8catalog_tree_model.cpp) -/

/-- `files[LowerCase(name)] = this` (V8File.cpp:58-61) for the files in turn: the keys of the map. -/
def mapKeys (lower : Str → Str) (keys : List Str) : List Str → List Str
  | [] => keys
  | n :: ns => mapKeys lower (if lower n ∈ keys then keys else keys ++ [lower n]) ns

/-- `catalog->v8files().size()` (v8catalog_tree_model.cpp:44, 47), for a container with these names in the order of its
list of files. -/
def catalogRows (lower : Str → Str) (names : List Str) : Nat := (mapKeys lower [] names).length

/-- `get_file` (v8catalog_tree_model.cpp:57-67). -/
def catalogFile : List Str → Nat → Option Str
  | f, 0 => f.head?
  | [], _ + 1 => none
  | _ :: f, k + 1 => catalogFile f k

/-- The rows below a container: `index` (v8catalog_tree_model.cpp:69-86) for each of the rows. -/
def catalogShown (lower : Str → Str) (names : List Str) : List (Option Str) :=
  (List.range (catalogRows lower names)).map (catalogFile names)

/-! ## Sizes (models/tables_list_model.cpp) -/

/-- The loop of `human_size` (tables_list_model.cpp:40-45): turns left, value, fraction. -/
def sizeLoop : Nat → Nat → Nat → Nat × Nat × Nat
  | 0, m, f => (0, m, f)
  | n + 1, m, f => if m > 1000 then sizeLoop n (m / 1024) (m % 1024) else (n + 1, m, f)

/-- `human_size` (tables_list_model.cpp:31-48): whole part, fraction in 1024ths, number of the suffix among the five. -/
def humanSize (s : Nat) : Outcome (Nat × Nat × Nat) :=
  let r := sizeLoop 5 s 0
  if r.1 = 0 then .ub else .ok (r.2.1, r.2.2, 5 - r.1)

/-! ## The list of files opened before (cache.cpp) -/

/-- `Cache::addDbToList` (cache.cpp:71-81): the text of the list afterwards. -/
def addToList (text name : Str) : Str := text ++ name ++ ['\n']

/-- A line without its carriage return. Serves the model of cache.cpp:57-61. -/
def chomp (l : Str) : Str := if l.getLast? = some '\r' then l.dropLast else l

/-- `stream.readLine()` until it is null (cache.cpp:57-61); `cur` is the line read so far. -/
def readLines : Str → Str → List Str
  | [], cur => if cur.isEmpty then [] else [cur]
  | c :: cs, cur => if c = '\n' then chomp cur :: readLines cs [] else readLines cs (cur ++ [c])

/-- `Cache::getCachedList` (cache.cpp:50-69). -/
def cachedList (text : Str) : List Str := (readLines text []).filter (fun l => !l.isEmpty)

/-! ## Packed values (models/table_data_model.cpp) -/

/-- The loop of `inflate_stream` (table_data_model.cpp:190-206): `inflate` is `ZInflateStream`, `none` a `ZError`. -/
def inflateLoop (inflate : Bytes → Option Bytes) : Nat → Bytes → Nat → Bytes × Nat
  | 0, b, counter => (b, counter)
  | n + 1, b, counter =>
    match inflate b with
    | none => (b, counter)
    | some u => if counter > 10 then (u, counter + 1) else inflateLoop inflate n u (counter + 1)

/-- `inflate_stream` (table_data_model.cpp:190-206): the loop ends after twelve turns at the latest. -/
def inflateStream (inflate : Bytes → Option Bytes) (b : Bytes) : Bytes × Nat := inflateLoop inflate 13 b 0

/-- `is_container_file` (starter.cpp:101-113). -/
def isContainerFile (b : Bytes) : Bool :=
  if (b.take 4).length ≠ 4 then false else decide (b.take 4 = [0xff, 0xff, 0xff, 0x7f])

end Verif.View
