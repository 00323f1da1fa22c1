import Verif.Tree.Model

/-! # Specification for bracket trees -/

namespace Verif.Tree.Spec
open Verif

/-- Scan a text, keeping track of being inside a quoted string and of the number of
open brackets; `none` when a bracket is closed that was not opened. -/
def scan : Str → Bool → Nat → Option (Bool × Nat)
  | [], q, d => some (q, d)
  | c :: s, true, d => scan s (c != '"') d
  | c :: s, false, d =>
    if c = '"' then scan s true d
    else if c = '{' then scan s false (d + 1)
    else if c = '}' then (if d = 0 then none else scan s false (d - 1))
    else scan s false d

/-- Brackets outside quoted strings are balanced and every string is closed. -/
def Balanced (s : Str) : Prop := scan s false 0 = some (false, 0)

/-- A quoted string: quotes inside are doubled. -/
def quoted (v : Str) : Str := ['"'] ++ v.flatMap (fun c => if c = '"' then ['"', '"'] else [c]) ++ ['"']

/-- An unquoted value of the given type that starts visibly. -/
def Token (t : NType) (v : Str) : Prop :=
  v ≠ [] ∧ '\x00' ∉ v ∧ (∀ c, v.head? = some c → c ∉ [' ', '\t', '\r', '\n']) ∧ t ≠ .unknown ∧ classify v = t

def NoBare : List Node → Prop
  | [.mk .empty _ []] => False
  | _ => True

/-- Trees whose leaves carry well-formed values: an empty leaf, a string, an unquoted
value of the right type, or a non-empty list. The only excluded nestings are the list
without children and the list whose only child is the empty leaf. -/
inductive WellFormed : Node → Prop where
  | empty : WellFormed (.mk .empty [] [])
  | string (v) : WellFormed (.mk .string v [])
  | token {t v} : Token t v → WellFormed (.mk t v [])
  | list {k ks} : (∀ n ∈ k :: ks, WellFormed n) → NoBare (k :: ks) → WellFormed (.mk .list [] (k :: ks))

/-- Some leaf could not be classified. -/
inductive HasUnknown : Node → Prop where
  | here {v ks} : HasUnknown (.mk .unknown v ks)
  | deep {t v ks n} : n ∈ ks → HasUnknown n → HasUnknown (.mk t v ks)

end Verif.Tree.Spec
