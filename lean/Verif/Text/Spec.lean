import Verif.Basic

/-! # Specification vocabulary: replacing occurrences, XML entities -/

namespace Verif.Text.Spec
open Verif

/-- Replace the leftmost non-overlapping occurrences of the non-empty pattern `old`,
scanning once from left to right (`n` is the number of characters to look at). -/
def replaceScan (old new : Str) : Nat → Str → Str
  | 0, s => s
  | _ + 1, [] => []
  | n + 1, c :: s =>
    if old <+: (c :: s) then new ++ replaceScan old new n ((c :: s).drop old.length)
    else c :: replaceScan old new n s

def replaceAll (old new s : Str) : Str := replaceScan old new s.length s

/-- Replace only the leftmost occurrence. -/
def replaceFirst (old new : Str) : Str → Str
  | [] => []
  | c :: s => if old <+: (c :: s) then new ++ (c :: s).drop old.length else c :: replaceFirst old new s

/-- The five predefined XML entities. -/
def entities : List (Str × Char) :=
  [("&amp;".toList, '&'), ("&lt;".toList, '<'), ("&gt;".toList, '>'), ("&apos;".toList, '\''),
   ("&quot;".toList, '"')]

/-- Decode entities from left to right; any other character stands for itself. -/
def unescape : Nat → Str → Str
  | 0, _ => []
  | _ + 1, [] => []
  | n + 1, c :: s =>
    match entities.find? (fun e => e.1.isPrefixOf (c :: s)) with
    | some e => e.2 :: unescape n ((c :: s).drop e.1.length)
    | none => c :: unescape n s

def unescapeXML (s : Str) : Str := unescape s.length s

end Verif.Text.Spec
