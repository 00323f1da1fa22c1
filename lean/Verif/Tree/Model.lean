import Verif.Tree.Regex
import Verif.Text.Model

/-!
# Bracket trees (src/tool1cd/Parse_tree.cpp)

The doubly linked tree is modelled by the value it represents (see Verif/Links for the nodes). While parsing, the
open nodes (all of them lists with an empty value) form a stack of the children
read so far, innermost first; `t` is its top and the root its bottom. An empty
stack would be a null `t`.
-/

namespace Verif.Tree
open Verif Text

/-- `enum class node_type` (NodeTypes.h:27-39). -/
inductive NType where
  | empty | string | number | numberExp | guid | list | binary | binary2 | link | binaryD | unknown
  deriving DecidableEq, Repr

/-- `class Tree` (Parse_tree.h:38-73): type, value, children. -/
inductive Node where
  | mk (type : NType) (value : Str) (kids : List Node)
  deriving Repr

namespace Node
/-- Serves the model of Parse_tree.h:38-73. -/
def type : Node → NType | mk t _ _ => t
/-- Serves the model of Parse_tree.h:38-73. -/
def value : Node → Str | mk _ v _ => v
/-- Serves the model of Parse_tree.h:38-73. -/
def kids : Node → List Node | mk _ _ ks => ks
/-- `Tree(value, type, …)` without children. Serves the model of Parse_tree.cpp:452-458, 463-469. -/
abbrev leaf (t : NType) (v : Str) : Node := mk t v []
/-- `Tree("", nd_list, …)`. Serves the model of NodeTypes.h:27-39. -/
abbrev list (ks : List Node) : Node := mk .list [] ks
end Node

/-! ## Classification of values (Parse_tree.cpp:32-38, 257-292) -/

/-- Serves the model of Parse_tree.cpp:257-292. -/
def isDigit (c : Char) : Bool := decide ('0' ≤ c ∧ c ≤ '9')
/-- Serves the model of Parse_tree.cpp:257-292. -/
def isHex (c : Char) : Bool := isDigit c || decide ('a' ≤ c ∧ c ≤ 'f') || decide ('A' ≤ c ∧ c ≤ 'F')
/-- `[0-9a-zA-Z\+=\r\n\/]`. Serves the model of Parse_tree.cpp:257-292. -/
def isB64 (c : Char) : Bool :=
  isDigit c || decide ('a' ≤ c ∧ c ≤ 'z') || decide ('A' ≤ c ∧ c ≤ 'Z') ||
    c == '+' || c == '=' || c == '\r' || c == '\n' || c == '/'

open Re in
/-- `^-?\d+$`. Serves the model of Parse_tree.cpp:257-292. -/
def reNumber : Re := seq (opt (chr '-')) (plus (cls isDigit))
open Re in
/-- `^-?\d+(\.?\d*)?((e|E)-?\d+)?$`. Serves the model of Parse_tree.cpp:257-292. -/
def reNumberExp : Re :=
  seq (opt (chr '-')) (seq (plus (cls isDigit))
    (seq (opt (seq (opt (chr '.')) (star (cls isDigit))))
      (opt (seq (alt (chr 'e') (chr 'E')) (seq (opt (chr '-')) (plus (cls isDigit)))))))
open Re in
/-- eight, four, four, four and twelve hexadecimal digits. Serves the model of Parse_tree.cpp:257-292. -/
def reGuid : Re :=
  seq (rep (cls isHex) 8) (seq (chr '-') (seq (rep (cls isHex) 4) (seq (chr '-')
    (seq (rep (cls isHex) 4) (seq (chr '-') (seq (rep (cls isHex) 4) (seq (chr '-') (rep (cls isHex) 12))))))))
open Re in
/-- `^#base64:[…]*$`. Serves the model of Parse_tree.cpp:257-292. -/
def reBinary : Re := seq (lit ['#', 'b', 'a', 's', 'e', '6', '4', ':']) (star (cls isB64))
open Re in
/-- `^[…]+$`. Serves the model of Parse_tree.cpp:257-292. -/
def reBinary2 : Re := plus (cls isB64)
open Re in
/-- `^[0-9]+:[0-9a-fA-F]{32}$`. Serves the model of Parse_tree.cpp:257-292. -/
def reLink : Re := seq (plus (cls isDigit)) (seq (chr ':') (rep (cls isHex) 32))
open Re in
/-- `^#data:[…]*$`. Serves the model of Parse_tree.cpp:257-292. -/
def reBinaryD : Re := seq (lit ['#', 'd', 'a', 't', 'a', ':']) (star (cls isB64))

/-- `value.c_str()` as the matcher sees it: up to the first NUL. Serves the model of Parse_tree.cpp:257-292. -/
def cstr (v : Str) : Str := v.takeWhile (fun c => c != '\x00')

/-- `classification_value` (Parse_tree.cpp:257-292). -/
def classify (v : Str) : NType :=
  if v.length = 0 then .empty
  else if reNumber.test (cstr v) then .number
  else if reNumberExp.test (cstr v) then .numberExp
  else if reGuid.test (cstr v) then .guid
  else if reBinary.test (cstr v) then .binary
  else if reLink.test (cstr v) then .link
  else if reBinary2.test (cstr v) then .binary2
  else if reBinaryD.test (cstr v) then .binaryD
  else .unknown

/-! ## Text of a tree (Parse_tree.cpp:192-237, 534-543) -/

/-- The childless case of `Tree::outtext` (Parse_tree.cpp:216-235). -/
def outLeaf (t : NType) (v : Str) : Str :=
  match t with
  | .string => ['"'] ++ (stringReplace (v.length + 1) v ['"'] ['"', '"'] true).getD [] ++ ['"']
  | .number | .numberExp | .guid | .list | .binary | .binary2 | .link | .binaryD => v
  | .empty | .unknown => []

/-- Serves the model of Parse_tree.cpp:192-237. -/
def crlf : Str := ['\r', '\n']

mutual
/-- `Tree::outtext(std::string&)` (Parse_tree.cpp:192-237). -/
def out : Node → Str → Str
  | .mk t v [], text => text ++ outLeaf t v
  | .mk _ _ (k :: ks), text =>
    let text := (if text.isEmpty then text else text ++ crlf) ++ ['{']
    let text := outKids (k :: ks) text
    (if (((k :: ks).getLast?).map Node.type) = some .list then text ++ crlf else text) ++ ['}']
/-- The loop over the children (Parse_tree.cpp:203-210). -/
def outKids : List Node → Str → Str
  | [], text => text
  | k :: ks, text =>
    let text := out k text
    outKids ks (if ks.isEmpty then text else text ++ [','])
end

/-- `outtext(Tree*)` (Parse_tree.cpp:534-543): the first child only. -/
def outtext (t : Node) : Str :=
  match t.kids with
  | [] => []
  | k :: _ => out k []

/-! ## Parsing (Parse_tree.cpp:321-519) -/

/-- `enum class state_type` (Parse_tree.h:30-36). -/
inductive Mode where
  | value | delimiter | string | quoteOrEnd | nonstring
  deriving DecidableEq, Repr

/-- Serves the model of Parse_tree.cpp:336-490. -/
structure PSt where
  mode : Mode
  cur : Str
  /-- children read so far of the open nodes, innermost first -/
  stack : List (List Node)

/-- `t->add_child(v, type)`. Serves the model of Parse_tree.cpp:452-458, 463-469. -/
def addChild (st : List (List Node)) (n : Node) : Outcome (List (List Node)) :=
  match st with
  | [] => .ub
  | ks :: rest => .ok ((ks ++ [n]) :: rest)

/-- `t = t->get_parent(); if (!t) throw`. Serves the model of Parse_tree.cpp:354-366. -/
def close (st : List (List Node)) : Outcome (List (List Node)) :=
  match st with
  | [] => .ub
  | [_] => .throw
  | ks :: ks' :: rest => .ok ((ks' ++ [Node.list ks]) :: rest)

/-- Serves the model of Parse_tree.cpp:336-490. -/
def isBlank (c : Char) : Bool := c == ' ' || c == '\t' || c == '\r' || c == '\n'

/-- The end of an unquoted value (Parse_tree.cpp:452-458, 463-469). -/
def addClassified (cur : Str) (st : List (List Node)) : Outcome (List (List Node)) :=
  if classify cur = .unknown then .throw else addChild st (.leaf (classify cur) cur)

/-- `}` while a value is expected (Parse_tree.cpp:354-366). -/
def closeValue (st : List (List Node)) : Outcome (List (List Node)) :=
  match st with
  | [] => .ub
  | [] :: _ => close st
  | (_ :: _) :: _ => do
    let st ← addChild st (.leaf .empty [])
    close st

/-- One turn of the loop (Parse_tree.cpp:336-490). -/
def step (s : PSt) (c : Char) : Outcome PSt :=
  match s.mode with
  | .value =>
    if isBlank c then .ok s
    else if c = '"' then .ok { s with mode := .string, cur := [] }
    else if c = '{' then .ok { s with stack := [] :: s.stack }
    else if c = '}' then do
      let st ← closeValue s.stack
      .ok { s with mode := .delimiter, stack := st }
    else if c = ',' then do
      let st ← addChild s.stack (.leaf .empty [])
      .ok { s with stack := st }
    else .ok { s with mode := .nonstring, cur := [c] }
  | .delimiter =>
    if isBlank c then .ok s
    else if c = ',' then .ok { s with mode := .value }
    else if c = '}' then do
      let st ← close s.stack
      .ok { s with stack := st }
    else .throw
  | .string =>
    if c = '"' then .ok { s with mode := .quoteOrEnd } else .ok { s with cur := s.cur ++ [c] }
  | .quoteOrEnd =>
    if c = '"' then .ok { s with mode := .string, cur := s.cur ++ [c] }
    else do
      let st ← addChild s.stack (.leaf .string s.cur)
      if isBlank c then .ok { s with mode := .delimiter, stack := st }
      else if c = ',' then .ok { s with mode := .value, stack := st }
      else if c = '}' then do
        let st ← close st
        .ok { s with mode := .delimiter, stack := st }
      else .throw
  | .nonstring =>
    if c = ',' then do
      let st ← addClassified s.cur s.stack
      .ok { s with mode := .value, stack := st }
    else if c = '}' then do
      let st ← addClassified s.cur s.stack
      let st ← close st
      .ok { s with mode := .delimiter, stack := st }
    else .ok { s with cur := s.cur ++ [c] }

/-- Serves the model of Parse_tree.cpp:528-532. -/
def run (s : PSt) : Str → Outcome PSt
  | [] => .ok s
  | c :: cs => do
    let s ← step s c
    run s cs

/-- `if (t != ret) throw; return ret;` (Parse_tree.cpp:512-518). -/
def finishTree (st : List (List Node)) : Outcome Node :=
  match st with
  | [] => .ub
  | [ks] => .ok (Node.list ks)
  | _ :: _ :: _ => .throw

/-- After the loop (Parse_tree.cpp:492-518); an unclassifiable last value is only
logged. -/
def finish (s : PSt) : Outcome Node :=
  match s.mode with
  | .nonstring => do
    let st ← addChild s.stack (.leaf (classify s.cur) s.cur)
    finishTree st
  | .quoteOrEnd => do
    let st ← addChild s.stack (.leaf .string s.cur)
    finishTree st
  | .delimiter => finishTree s.stack
  | .value | .string => .throw

/-- Serves the model of Parse_tree.cpp:528-532. -/
def start : PSt := ⟨.value, [], [[]]⟩

/-- `parse_1Ctext` (Parse_tree.cpp:528-532). -/
def parseText (s : Str) : Outcome Node := do
  let st ← run start s
  finish st

/-- `parse_1Cstream` (Parse_tree.cpp:294-308, 521-525): reading stops at the first NUL. -/
def parseStream (s : Str) : Outcome Node := parseText (cstr s)

end Verif.Tree
