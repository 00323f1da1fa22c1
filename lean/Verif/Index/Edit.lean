import Verif.Index.Leaf

/-! # Changing a leaf page

Models the leaf parts of `Index::write_index_record` and `Index::delete_index_record`
(src/tool1cd/Index.cpp:911-1007 and 667-720): what happens to one page. Choosing a new block
and writing pages to the file are not part of this. -/

namespace Verif.Index
open Verif

/-- What the two functions know of the index. Serves the model of Index.cpp:911-1007. -/
structure Params where
  primary : Bool
  len : Nat
  pagesize : Nat
  deriving DecidableEq, Repr

/-- `memcmp(a, b, length) < 0` of keys of the same length. Serves the model of Index.cpp:919-937. -/
def lessB : Bytes → Bytes → Bool
  | a :: as, b :: bs => if a = b then lessB as bs else decide (a < b)
  | _, _ => false

/-- The search for the place of a new entry (Index.cpp:919-937). -/
def place (primary : Bool) (num : Nat) (key : Bytes) : List Entry → Outcome Nat
  | [] => .ok 0
  | e :: es =>
    if key = e.key then (if primary = true ∨ e.num = num then .throw else .ok 0)
    else if lessB key e.key = true then .ok 0
    else do
      let i ← place primary num key es
      .ok (i + 1)

/-- An unpacked entry in the caller's buffer: the number, then the key. Serves the model of Index.cpp:911-1007. -/
def entryBytes (e : Entry) : Bytes := le 4 e.num ++ e.key

/-- The page with other flags and links (Index.cpp:958-960, 982-987, 712). -/
def setHdr (page : Bytes) (flags prev next : Nat) : Bytes :=
  le 2 flags ++ (page.drop 2).take 2 ++ le 4 prev ++ le 4 next ++ page.drop 12

/-- What became of a page that got one more entry: it is replaced (and the caller told of a
new last entry), or split in two. A half that could not be packed is `none`: the result of
the packer is not looked at there (Index.cpp:968-969), and what is written is the wreck of a page. -/
inductive Written
  | fits (page : Bytes) (last : Option Entry)
  | split (page1 page2 : Option Bytes) (last1 last2 : Entry)
  deriving DecidableEq, Repr

/-- The leaf part of `write_index_record` (Index.cpp:911-1007). `junk` is the fresh page 2. The links
between the two halves are filled in by `linkHalves`. With a single entry that does not fit,
the last entry of an empty half is read. -/
def leafWrite (P : Params) (page junk : Bytes) (num : Nat) (key : Bytes) : Outcome Written := do
  let flags ← rd page 0 2
  let prev ← rd page 4 4
  let next ← rd page 8 4
  let es ← unpack P.len page
  let i ← place P.primary num key es
  let new := es.take i ++ ⟨num, key⟩ :: es.drop i
  let r ← pack P.primary P.len P.pagesize [] new page
  match r with
  | some p => .ok (.fits (setHdr p flags prev next) (if i = es.length then new.getLast? else none))
  | none => do
    let n1 := new.length / 2
    let p1 ← pack P.primary P.len P.pagesize ((new.drop n1).map entryBytes).flatten (new.take n1) page
    let p2 ← pack P.primary P.len P.pagesize [] (new.drop n1) junk
    match (new.take n1).getLast?, new.getLast? with
    | some l1, some l2 => .ok (.split p1 p2 l1 l2)
    | _, _ => .ub

/-- The headers of the two halves (Index.cpp:981-987), `block` and `block2` being their numbers: neither
half is the root. The page after them still has the old block before it. -/
def linkHalves (flags prev next block block2 : Nat) (p1 p2 : Bytes) : Bytes × Bytes :=
  let fl := flags &&& 65534
  (setHdr p1 fl prev block2, setHdr p2 fl block next)

/-- Where the entry is (Index.cpp:675-678). -/
def findEntry (num : Nat) (key : Bytes) : List Entry → Option Nat
  | [] => none
  | e :: es => if key = e.key ∧ e.num = num then some 0 else (findEntry num key es).map (· + 1)

/-- What became of a page that should lose an entry: nothing, because it has no such entry;
it has no entries left; or it is replaced (`none`: the result of the packer is not looked
at (Index.cpp:711), and what is written is the wreck of a page), with the new last entry if the
last one was removed. -/
inductive Deleted
  | absent
  | emptied
  | kept (page : Option Bytes) (last : Option Entry)
  deriving DecidableEq, Repr

/-- The leaf part of `delete_index_record` (Index.cpp:667-720). After the remaining entries the caller's
buffer has one more entry. -/
def leafDelete (P : Params) (page : Bytes) (num : Nat) (key : Bytes) : Outcome Deleted := do
  let flags ← rd page 0 2
  let prev ← rd page 4 4
  let next ← rd page 8 4
  let es ← unpack P.len page
  match findEntry num key es with
  | none => .ok .absent
  | some i =>
    let rest := es.take i ++ es.drop (i + 1)
    if rest = [] then .ok .emptied
    else do
      let r ← pack P.primary P.len P.pagesize ((es.getLast?.map entryBytes).getD []) rest page
      .ok (.kept (r.map (fun p => setHdr p flags prev next)) (if i = es.length - 1 then rest.getLast? else none))

/-- The page of a new root above two halves (Index.cpp:819-848). `root` and `block2` are the byte
offsets of the halves. -/
def newRoot (v838 : Bool) (pagesize : Nat) (last1 last2 : Entry) (root block2 : Nat) : Bytes :=
  let num (b : Nat) := if v838 then b / pagesize else b
  let used := le 2 3 ++ le 2 2 ++ le 4 4294967295 ++ le 4 4294967295 ++
    last1.key ++ (le 4 last1.num).reverse ++ (le 4 (num root)).reverse ++
    last2.key ++ (le 4 last2.num).reverse ++ (le 4 (num block2)).reverse
  used ++ List.replicate (pagesize - used.length) 0

/-- What is then written at the start of the index (Index.cpp:852-853): four bytes of the byte offset. -/
def newRootWord (block : Nat) : Bytes := le 4 block

end Verif.Index
