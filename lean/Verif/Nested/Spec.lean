import Verif.Container.OpenSpec

/-!
# What a container with containers in it holds for its user

A tree: in order, named contents and named trees. A name, as code points, is looked up without regard to the case of
letters. A path is a list of names of trees.
-/

namespace Verif.Nested.Spec
open Verif Verif.Unicode.Spec Verif.Container.Spec

/-- The members of a tree, in order: a content, or a tree, under a name, and the members that follow. -/
inductive Tree where
  | nil
  | file (n : List Nat) (b : Bytes) (rest : Tree)
  | dir (n : List Nat) (t : Tree) (rest : Tree)
  deriving DecidableEq, Repr

/-- No tree has this name. -/
def noDir (n : List Nat) : Tree → Prop
  | .nil => True
  | .file _ _ r => noDir n r
  | .dir m _ r => ¬ SameText m n ∧ noDir n r

/-- No content has this name. -/
def noFile (n : List Nat) : Tree → Prop
  | .nil => True
  | .file m _ r => ¬ SameText m n ∧ noFile n r
  | .dir _ _ r => noFile n r

/-- The tree of this name; the empty one if there is none. -/
def sub (n : List Nat) : Tree → Tree
  | .nil => .nil
  | .file _ _ r => sub n r
  | .dir m t r => if SameText m n then t else sub n r

/-- The content under a name is replaced, or added at the end. -/
def putFile (n : List Nat) (b : Bytes) : Tree → Tree
  | .nil => .file n b .nil
  | .file m c r => if SameText m n then .file m b r else .file m c (putFile n b r)
  | .dir m t r => .dir m t (putFile n b r)

/-- The tree under a name is replaced by `t'`, or `t'` added at the end. -/
def putDir (n : List Nat) (t' : Tree) : Tree → Tree
  | .nil => .dir n t' .nil
  | .file m c r => .file m c (putDir n t' r)
  | .dir m t r => if SameText m n then .dir m t' r else .dir m t (putDir n t' r)

/-- Storing a content at the end of a path; trees of the path that are not there are made. -/
def putAt (t : Tree) (n : List Nat) (b : Bytes) : List (List Nat) → Tree
  | [] => putFile n b t
  | d :: ds => putDir d (putAt (sub d t) n b ds) t

/-- The content found under a name. -/
def getFile (n : List Nat) : Tree → Option Bytes
  | .nil => none
  | .file m b r => if SameText m n then some b else getFile n r
  | .dir _ _ r => getFile n r

/-- The content found at the end of a path. -/
def getAt (t : Tree) (n : List Nat) : List (List Nat) → Option Bytes
  | [] => getFile n t
  | d :: ds => getAt (sub d t) n ds

/-- What has this name, a content or a tree, is removed. -/
def drop (n : List Nat) : Tree → Tree
  | .nil => .nil
  | .file m c r => if SameText m n then drop n r else .file m c (drop n r)
  | .dir m t r => if SameText m n then drop n r else .dir m t (drop n r)

/-- The tree of this name is changed, if there is one. -/
def inDir (d : List Nat) (f : Tree → Tree) : Tree → Tree
  | .nil => .nil
  | .file m c r => .file m c (inDir d f r)
  | .dir m t r => if SameText m d then .dir m (f t) r else .dir m t (inDir d f r)

/-- What is at the end of a path is removed. -/
def dropAt (n : List Nat) : List (List Nat) → Tree → Tree
  | [] => drop n
  | d :: ds => inDir d (dropAt n ds)

/-- The names of the members, in order. -/
def names : Tree → List (List Nat)
  | .nil => []
  | .file m _ r => m :: names r
  | .dir m _ r => m :: names r

/-- The tree of this name. -/
def dir? (n : List Nat) : Tree → Option Tree
  | .nil => none
  | .file _ _ r => dir? n r
  | .dir m t r => if SameText m n then some t else dir? n r

/-- The tree at the end of a path. -/
def treeAt (t : Tree) : List (List Nat) → Option Tree
  | [] => some t
  | d :: ds => match dir? d t with
    | none => none
    | some t => treeAt t ds

/-- The path leads through trees. -/
def Through (t : Tree) : List (List Nat) → Prop
  | [] => True
  | d :: ds => noFile d t ∧ Through (sub d t) ds

/-- The path leads through trees, and there is no tree at its end. -/
def Free (t : Tree) (n : List Nat) : List (List Nat) → Prop
  | [] => noDir n t
  | d :: ds => noFile d t ∧ Free (sub d t) n ds

/-- What the user does. -/
inductive Act where
  | put (path : List (List Nat)) (n : List Nat) (b : Bytes) (now : Nat)
  | remove (path : List (List Nat)) (n : List Nat)
  | flush
  | reopen

/-- The expected effect: flushing everything, and closing everything and opening it again, change nothing. -/
def effect (t : Tree) : Act → Tree
  | .put path n b _ => putAt t n b path
  | .remove path n => dropAt n path t
  | .flush => t
  | .reopen => t

end Verif.Nested.Spec
