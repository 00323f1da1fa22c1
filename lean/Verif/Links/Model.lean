import Verif.Tree.Model
import Verif.Decimal.Model

/-!
# Bracket trees as linked nodes (src/tool1cd/Parse_tree.cpp)

The nodes themselves, with their pointers. A pointer is the number of the node, in the
order of creation; `none` is the null pointer. Simplifications: the memory of a destroyed
node is never used again, so that a stale pointer is seen as one; the `int` and
`unsigned` counters do not overflow (there are fewer than 2^31 nodes).
-/

namespace Verif.Links
open Verif Tree

/-- The members of `class Tree` (Parse_tree.h:59-67). -/
structure Cell where
  value : Str
  type : NType
  num : Int
  parent : Option Nat
  next : Option Nat
  prev : Option Nat
  first : Option Nat
  last : Option Nat
  index : Nat
  deriving DecidableEq

/-- The nodes in existence; `fresh` is the number of the next one. Serves the model of Parse_tree.cpp:51-63. -/
structure Heap where
  cell : Nat → Option Cell
  fresh : Nat

/-- Serves the model of Parse_tree.cpp:97-100. -/
def empty : Heap := ⟨fun _ => none, 0⟩

/-- Reading through a pointer: undefined when the node is gone. Serves the model of Parse_tree.cpp:51-63. -/
def deref (h : Heap) (i : Nat) : Outcome Cell :=
  match h.cell i with
  | some c => .ok c
  | none => .ub

/-- Serves the model of Parse_tree.cpp:74-82. -/
def put (h : Heap) (i : Nat) (c : Option Cell) : Heap :=
  { h with cell := fun j => if j = i then c else h.cell j }

/-- Assigning members through a pointer. Serves the model of Parse_tree.cpp:51-63. -/
def modify (h : Heap) (i : Nat) (f : Cell → Cell) : Outcome Heap := do
  let c ← deref h i
  .ok (put h i (some (f c)))

/-- The part of the constructor inside `if(parent)` (Parse_tree.cpp:51-63). -/
def attach (h : Heap) (n p : Nat) : Outcome Heap := do
  let h ← modify h p (fun c => { c with num := c.num + 1 })
  let pc ← deref h p
  let h ← modify h n (fun c => { c with prev := pc.last })
  match pc.last with
  | some q => do
    let h ← modify h q (fun c => { c with next := some n })
    let qc ← deref h q
    let h ← modify h n (fun c => { c with index := qc.index + 1 })
    modify h p (fun c => { c with last := some n })
  | none => do
    let h ← modify h p (fun c => { c with first := some n })
    modify h p (fun c => { c with last := some n })

/-- `Tree::Tree` (Parse_tree.cpp:43-68): the new node and its number. -/
def create (h : Heap) (v : Str) (t : NType) (parent : Option Nat) : Outcome (Heap × Nat) :=
  let n := h.fresh
  let h : Heap := ⟨fun j => if j = n then some ⟨v, t, 0, parent, none, none, none, none, 0⟩ else h.cell j, n + 1⟩
  match parent with
  | none => .ok (h, n)
  | some p => do
    let h ← attach h n p
    .ok (h, n)

/-- `Tree::add_child(value, type)` (Parse_tree.cpp:85-88); without arguments
(Parse_tree.cpp:91-94) it is the case of `""` and `nd_empty`. -/
def addChild (h : Heap) (i : Nat) (v : Str) (t : NType) : Outcome (Heap × Nat) :=
  create h v t (some i)

/-- `Tree::add_node` (Parse_tree.cpp:97-100). -/
def addNode (h : Heap) (i : Nat) : Outcome (Heap × Nat) := do
  let c ← deref h i
  create h [] .empty c.parent

/-- `if(prev) prev->next = next;` (Parse_tree.cpp:74). -/
def bypassNext (h : Heap) (c : Cell) : Outcome Heap :=
  match c.prev with
  | some q => modify h q (fun d => { d with next := c.next })
  | none => .ok h

/-- `if(next) next->prev = prev;` (Parse_tree.cpp:75). -/
def bypassPrev (h : Heap) (c : Cell) : Outcome Heap :=
  match c.next with
  | some q => modify h q (fun d => { d with prev := c.prev })
  | none => .ok h

/-- `if(parent) { … }` (Parse_tree.cpp:76-81). -/
def detach (h : Heap) (i : Nat) (c : Cell) : Outcome Heap :=
  match c.parent with
  | some p => modify h p (fun d =>
      { d with first := if d.first = some i then c.next else d.first,
               last := if d.last = some i then c.prev else d.last,
               num := d.num - 1 })
  | none => .ok h

/-- The destructor after its loop (Parse_tree.cpp:74-82), and the release of the memory. -/
def unlink (h : Heap) (i : Nat) (c : Cell) : Outcome Heap := do
  let h ← bypassNext h c
  let h ← bypassPrev h c
  let h ← detach h i c
  .ok (put h i none)

/-- `delete` of a node (`Tree::~Tree`, Parse_tree.cpp:71-82). The loop `while(last) delete
last;` destroys the last child and looks again. `none`: still running. -/
def destroy : Nat → Heap → Nat → Outcome (Option Heap)
  | 0, _, _ => .ok none
  | n + 1, h, i => do
    let c ← deref h i
    match c.last with
    | some k => do
      match ← destroy n h k with
      | none => .ok none
      | some h => destroy n h i
    | none => do
      let h ← unlink h i c
      .ok (some h)

/-- `Tree::set_value` (Parse_tree.cpp:115-119). -/
def setValue (h : Heap) (i : Nat) (v : Str) (t : NType) : Outcome Heap :=
  modify h i (fun c => { c with value := v, type := t })

/-- The loop of `get_subnode(int)` (Parse_tree.cpp:131-135): `t = t->next` through a null
pointer is undefined. `none`: still running. -/
def walk (h : Heap) : Nat → Option Nat → Int → Outcome (Option (Option Nat))
  | 0, _, _ => .ok none
  | n + 1, t, k =>
    if k = 0 then .ok (some t)
    else match t with
      | none => .ub
      | some i => do
        let c ← deref h i
        walk h n c.next (k - 1)

/-- `Tree::get_subnode(int)` (Parse_tree.cpp:127-137). -/
def subnode (fuel : Nat) (h : Heap) (i : Nat) (k : Int) : Outcome (Option (Option Nat)) := do
  let c ← deref h i
  if k ≥ c.num then .ok (some none) else walk h fuel c.first k

/-- The loop of `get_subnode(const std::string&)` (Parse_tree.cpp:143-149). `Equal` ignores
letter case; `eq` stands for it. -/
def seek (eq : Str → Str → Bool) (h : Heap) (name : Str) : Nat → Option Nat → Outcome (Option (Option Nat))
  | 0, _ => .ok none
  | n + 1, t =>
    match t with
    | none => .ok (some none)
    | some i => do
      let c ← deref h i
      if eq c.value name then .ok (some (some i)) else seek eq h name n c.next

/-- `Tree::get_subnode(const std::string&)` (Parse_tree.cpp:140-151). -/
def subnodeNamed (eq : Str → Str → Bool) (fuel : Nat) (h : Heap) (i : Nat) (name : Str) :
    Outcome (Option (Option Nat)) := do
  let c ← deref h i
  seek eq h name fuel c.first

/-- `if(ret) ret = ret->next;` (Parse_tree.cpp:185). -/
def nextOf (h : Heap) : Option Nat → Outcome (Option Nat)
  | none => .ok none
  | some i => do
    let c ← deref h i
    .ok c.next

/-- The loop of `operator []` (Parse_tree.cpp:182-187), for an `int` counter: below its least
value it overflows. -/
def step (h : Heap) : Nat → Option Nat → Int → Outcome (Option (Option Nat))
  | 0, _, _ => .ok none
  | n + 1, t, k =>
    if k = 0 then .ok (some t)
    else do
      let t ← nextOf h t
      if k = -2 ^ 31 then .ub else step h n t (k - 1)

/-- `Tree::operator []` (Parse_tree.cpp:178-189): a reference to the node found; `*ret` of a null
pointer is undefined. -/
def at_ (fuel : Nat) (h : Heap) (i : Nat) (k : Int) : Outcome (Option Nat) := do
  let c ← deref h i
  match ← step h fuel c.first k with
  | none => .ok none
  | some none => .ub
  | some (some j) => .ok (some j)

/-- `Tree::path` (Parse_tree.cpp:240-253): the numbers from the root down; the text puts `:`
before each. -/
def pathList (h : Heap) : Nat → Nat → List Nat → Outcome (Option (List Nat))
  | 0, _, _ => .ok none
  | n + 1, i, p => do
    let c ← deref h i
    match c.parent with
    | none => .ok (some p)
    | some q => pathList h n q (c.index :: p)

/-- The text of a path (Parse_tree.cpp:250). -/
def pathText (p : List Nat) : Str := p.flatMap (fun k => ':' :: (toString k).toList)

/-- Serves the model of skobka_tree_model.cpp:126-178. -/
def path (fuel : Nat) (h : Heap) (i : Nat) : Outcome (Option Str) := do
  match ← pathList h fuel i [] with
  | none => .ok none
  | some p => .ok (some (pathText p))

mutual
/-- `Tree::outtext(std::string&)` (Parse_tree.cpp:192-237). -/
def out : Nat → Heap → Nat → Str → Outcome (Option Str)
  | 0, _, _, _ => .ok none
  | n + 1, h, i, text => do
    let c ← deref h i
    if c.num ≠ 0 then do
      let text := (if text.isEmpty then text else text ++ crlf) ++ ['{']
      match ← outKids n h c.first .unknown text with
      | none => .ok none
      | some (text, lt) => .ok (some ((if lt = .list then text ++ crlf else text) ++ ['}']))
    else .ok (some (text ++ outLeaf c.type c.value))
/-- The loop over the children (Parse_tree.cpp:202-210): the text and the type of the last. -/
def outKids : Nat → Heap → Option Nat → NType → Str → Outcome (Option (Str × NType))
  | 0, _, _, _, _ => .ok none
  | _ + 1, _, none, lt, text => .ok (some (text, lt))
  | n + 1, h, some i, _, text => do
    match ← out n h i text with
    | none => .ok none
    | some text => do
      let c ← deref h i
      outKids n h c.next c.type (if c.next.isSome then text ++ [','] else text)
end

/-- `outtext(Tree*)` (Parse_tree.cpp:534-543). -/
def outtext (fuel : Nat) (h : Heap) (t : Option Nat) : Outcome (Option Str) :=
  match t with
  | none => .ok (some [])
  | some i => do
    let c ← deref h i
    match c.first with
    | none => .ok (some [])
    | some k => out fuel h k []

/-! ## The parser -/

/-- The variables of `parse_flow` (Parse_tree.cpp:324-334). -/
structure PSt where
  mode : Mode
  cur : Str
  heap : Heap
  t : Nat

/-- `t = t->get_parent(); if(!t) throw` (Parse_tree.cpp:358-364). -/
def close (s : PSt) : Outcome PSt := do
  let c ← deref s.heap s.t
  match c.parent with
  | none => .throw
  | some p => .ok { s with t := p }

/-- `t->add_child(…)`. Serves the model of Parse_tree.cpp:452-458, 463-469. -/
def add (s : PSt) (v : Str) (t : NType) : Outcome PSt := do
  let (h, _) ← addChild s.heap s.t v t
  .ok { s with heap := h }

/-- `t = new Tree("", nd_list, t)` (Parse_tree.cpp:352). -/
def enter (s : PSt) : Outcome PSt := do
  let (h, n) ← create s.heap [] .list (some s.t)
  .ok { s with heap := h, t := n }

/-- The end of an unquoted value (Parse_tree.cpp:452-458, 463-469). -/
def addClassified (s : PSt) : Outcome PSt :=
  if classify s.cur = .unknown then .throw else add s s.cur (classify s.cur)

/-- `}` while a value is expected (Parse_tree.cpp:354-366). -/
def closeValue (s : PSt) : Outcome PSt := do
  let c ← deref s.heap s.t
  match c.first with
  | none => close s
  | some _ => do
    let s ← add s [] .empty
    close s

/-- One turn of the loop (Parse_tree.cpp:336-490). -/
def turn (s : PSt) (c : Char) : Outcome PSt :=
  match s.mode with
  | .value =>
    if isBlank c then .ok s
    else if c = '"' then .ok { s with mode := .string, cur := [] }
    else if c = '{' then enter s
    else if c = '}' then do
      let s ← closeValue s
      .ok { s with mode := .delimiter }
    else if c = ',' then add s [] .empty
    else .ok { s with mode := .nonstring, cur := [c] }
  | .delimiter =>
    if isBlank c then .ok s
    else if c = ',' then .ok { s with mode := .value }
    else if c = '}' then close s
    else .throw
  | .string =>
    if c = '"' then .ok { s with mode := .quoteOrEnd } else .ok { s with cur := s.cur ++ [c] }
  | .quoteOrEnd =>
    if c = '"' then .ok { s with mode := .string, cur := s.cur ++ [c] }
    else do
      let s ← add s s.cur .string
      if isBlank c then .ok { s with mode := .delimiter }
      else if c = ',' then .ok { s with mode := .value }
      else if c = '}' then do
        let s ← close s
        .ok { s with mode := .delimiter }
      else .throw
  | .nonstring =>
    if c = ',' then do
      let s ← addClassified s
      .ok { s with mode := .value }
    else if c = '}' then do
      let s ← addClassified s
      let s ← close s
      .ok { s with mode := .delimiter }
    else .ok { s with cur := s.cur ++ [c] }

/-- Serves the model of Parse_tree.cpp:321-519. -/
def run (s : PSt) : Str → Outcome PSt
  | [] => .ok s
  | c :: cs => do
    let s ← turn s c
    run s cs

/-- `if(t != ret) throw; return ret;` (Parse_tree.cpp:512-518). -/
def finishTree (root : Nat) (s : PSt) : Outcome Heap :=
  if s.t = root then .ok s.heap else .throw

/-- After the loop (Parse_tree.cpp:492-518). -/
def finish (root : Nat) (s : PSt) : Outcome Heap :=
  match s.mode with
  | .nonstring => do
    let s ← add s s.cur (classify s.cur)
    finishTree root s
  | .quoteOrEnd => do
    let s ← add s s.cur .string
    finishTree root s
  | .delimiter => finishTree root s
  | .value | .string => .throw

/-- `parse_flow` (Parse_tree.cpp:321-519) from the nodes that exist: the nodes afterwards and
the root. -/
def parse (h : Heap) (text : Str) : Outcome (Heap × Nat) := do
  let (h, root) ← create h [] .list none
  let s ← run ⟨.value, [], h, root⟩ text
  let h ← finish root s
  .ok (h, root)

end Verif.Links
