import Verif.Index.Tree
import Verif.Index.EditSpec
import Verif.Index.WalkSpec

/-! # Specification vocabulary: an index as rows of pages

The pages of an index form rows. The bottom row are the leaves; an entry of a page in a row above
names a page of the row below and repeats its last entry. The pages of a row are linked to their
neighbours. -/

namespace Verif.Index.Spec
open Verif Index

/-- A page: its number in the file and what is on it. -/
structure Pg (α : Type) where
  no : Nat
  ents : List α
  deriving DecidableEq, Repr

/-- An entry of a branch page: key and record number, and the number of the page below. -/
abbrev Ref := Entry × Nat

/-- The bytes of page `no` of the file. -/
def bytesOf (ps : Nat) (f : Bytes) (no : Nat) : Bytes := (f.drop (no * ps)).take ps

/-- What a link to a page is: its number in format 8.3.8, its offset in the older ones. -/
def linkTo (c : Conf) : Option Nat → Nat
  | none => 4294967295
  | some no => if c.v838 then no else no * c.P.pagesize

/-- The page with other links to its neighbours. -/
def relinked (page links : Bytes) : Bytes := page.take 4 ++ links ++ page.drop 12

/-- The page is a leaf with these entries, whatever its links are. -/
structure LeafHolds (c : Conf) (page : Bytes) (es : List Entry) : Prop where
  unpacks : ∀ l : Bytes, l.length = 8 → unpack c.P.len (relinked page l) = .ok es
  lists : ∃ next, IsLeaf page (es.map (·.num)) next

/-- Page `p` of the file is this leaf, with these neighbours. -/
structure LeafAt (c : Conf) (f : Bytes) (p : Pg Entry) (prev next : Option Nat) : Prop where
  holds : LeafHolds c (bytesOf c.P.pagesize f p.no) p.ents
  prev : At (bytesOf c.P.pagesize f p.no) 4 4 (linkTo c prev)
  next : At (bytesOf c.P.pagesize f p.no) 8 4 (linkTo c next)

/-- The bytes of a branch entry. -/
def refBytes (c : Conf) (r : Ref) : Bytes := r.1.key ++ ((le 4 r.1.num).reverse ++ (le 4 (linkTo c (some r.2))).reverse)

/-- Page `p` of the file is this branch page, with these neighbours. -/
def BranchAt (c : Conf) (f : Bytes) (p : Pg Ref) (prev next : Option Nat) : Prop :=
  ∃ flags rest, flags < 65536 ∧ flags.testBit 1 = false ∧ p.ents.length < 65536 ∧ linkTo c prev < 2 ^ 32 ∧ linkTo c next < 2 ^ 32 ∧
    (∀ r ∈ p.ents, r.1.key.length = c.P.len ∧ r.1.num < 2 ^ 32) ∧
    bytesOf c.P.pagesize f p.no = le 2 flags ++ (le 2 p.ents.length ++ (le 4 (linkTo c prev) ++ (le 4 (linkTo c next) ++
      (p.ents.flatMap (refBytes c) ++ rest))))

/-- A row of pages between two others: every page has the page before and after it as its
neighbours. -/
def Row {α : Type} (page : Pg α → Option Nat → Option Nat → Prop) : Option Nat → List (Pg α) → Option Nat → Prop
  | _, [], _ => True
  | prev, p :: ps, next => page p prev (((ps.head?).map (·.no)).or next) ∧ Row page (some p.no) ps next

/-- What a row looks like from the row above: the last entry and the number of each page. -/
def ends (bs : List (List (Pg Ref))) (leaves : List (Pg Entry)) : List (Option Entry × Nat) :=
  match bs with
  | [] => leaves.map (fun p => (p.ents.getLast?, p.no))
  | row :: _ => row.map (fun p => ((p.ents.getLast?).map (·.1), p.no))

/-- The rows of an index in the file, the top one first. -/
def Rows (c : Conf) (f : Bytes) : List (List (Pg Ref)) → List (Pg Entry) → Prop
  | [], leaves => Row (LeafAt c f) none leaves none
  | row :: bs, leaves => Row (BranchAt c f) none row none ∧
      (row.flatMap (·.ents)).map (fun r => (some r.1, r.2)) = ends bs leaves ∧ Rows c f bs leaves

/-- The numbers of all pages. -/
def numbers (bs : List (List (Pg Ref))) (leaves : List (Pg Entry)) : List Nat :=
  (bs.map (fun row => row.map (·.no))).flatten ++ leaves.map (·.no)

/-- All entries of the index. -/
def contents (leaves : List (Pg Entry)) : List Entry := leaves.flatMap (·.ents)

/-- The entries are in order, and no key goes on from one leaf to the next. -/
structure Ordered (c : Conf) (leaves : List (Pg Entry)) : Prop where
  entries : ∀ p ∈ leaves, Entries c.P.len p.ents ∧ Sorted c.P.primary p.ents ∧ p.ents ≠ []
  rows : leaves.Pairwise (fun p q => ∀ x ∈ p.ents, ∀ y ∈ q.ents, Before x.key y.key)

/-- The pages are different, inside the file, and not the first page, where the list of free
pages begins; offsets have 32 bits. -/
structure Placed (c : Conf) (f : Bytes) (nos : List Nat) : Prop where
  nodup : nos.Nodup
  inside : ∀ n ∈ nos, 0 < n ∧ (n + 1) * c.P.pagesize ≤ f.length
  small : f.length < 2 ^ 32

/-- The sizes the functions are made for. -/
structure Sizes (c : Conf) : Prop where
  key : 0 < c.P.len ∧ c.P.len < 2 ^ 15
  page : 38 ≤ c.P.pagesize ∧ c.P.pagesize ≤ 65536

/-- An index whose root is page `root`. -/
structure Tree (c : Conf) (f : Bytes) (root : Nat) (bs : List (List (Pg Ref))) (leaves : List (Pg Entry)) : Prop where
  sizes : Sizes c
  rows : Rows c f bs leaves
  top : (ends bs leaves).map (·.2) = [root]
  placed : Placed c f (numbers bs leaves)
  ordered : Ordered c leaves

/-- The entries have room on one page, and the unpacker stays inside of it. -/
def Room (c : Conf) (es : List Entry) : Prop :=
  es.length < 32768 ∧ ∀ w, IsWidth c.P.len es w → Fits c.P.pagesize c.P.len es w ∧ Readable c.P.pagesize es w

/-- Nothing outside of these pages is changed, except the first four bytes of the file, where the
list of free pages begins. -/
def Elsewhere (c : Conf) (nos : List Nat) (f f' : Bytes) : Prop :=
  f'.length = f.length ∧ ∀ i, 4 ≤ i → i / c.P.pagesize ∉ nos → f'[i]? = f[i]?

/-- From page `n` on, the free pages are these; each begins with the number of the next one, the
last with 0. -/
def FreeFrom (ps : Nat) (f : Bytes) : Nat → List Nat → Prop
  | n, [] => n = 0
  | n, m :: ns => n = m ∧ 0 < m ∧ (m + 1) * ps ≤ f.length ∧ ∃ next, At (bytesOf ps f m) 0 4 next ∧ FreeFrom ps f next ns

/-- The free pages of the file. The file begins with the number of the first of them. -/
def Free (c : Conf) (f : Bytes) (ns : List Nat) : Prop := ∃ n, At f 0 4 n ∧ FreeFrom c.P.pagesize f n ns

/-- A key belongs on this leaf: everything on the leaves before it is smaller, and something on it
is not, unless it is the last one. -/
def Belongs (key : Bytes) (A : List (Pg Entry)) (p : Pg Entry) (B : List (Pg Entry)) : Prop :=
  (∀ q ∈ A, ∀ x ∈ q.ents, Before x.key key) ∧ (B = [] ∨ ∃ x ∈ p.ents, ¬ Before x.key key)

end Verif.Index.Spec
