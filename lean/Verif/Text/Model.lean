import Verif.Basic

/-!
# Search-and-replace and XML escaping
(src/tool1cd/SystemClasses/System.SysUtils.cpp, src/tool1cd/Common.cpp)
-/

namespace Verif.Text
open Verif

/-- First position `≥ pos` of the text `s` (whose first character has position `pos`)
where `pat` occurs. Serves the model of System.SysUtils.cpp:166-175. -/
def findFrom (pat : Str) : Nat → Str → Option Nat
  | pos, [] => if pat.isPrefixOf [] then some pos else none
  | pos, c :: s => if pat.isPrefixOf (c :: s) then some pos else findFrom pat (pos + 1) s

/-- `std::string::find(pat, spos)`: `none` is `npos`. Serves the model of System.SysUtils.cpp:166-175. -/
def find (s pat : Str) (spos : Nat) : Option Nat :=
  if spos ≤ s.length then findFrom pat spos (s.drop spos) else none

/-- `std::string::replace(pos, n, new)`. Serves the model of System.SysUtils.cpp:166-175. -/
def replaceAt (s : Str) (pos n : Nat) (new : Str) : Str := s.take pos ++ new ++ s.drop (pos + n)

/-- The `do … while (Flags & rfReplaceAll)` loop of `StringReplace`
(System.SysUtils.cpp:166-175). `none` means the loop is still running when the
fuel is used up. -/
def replaceLoop (old new : Str) (all : Bool) : Nat → Str → Nat → Option Str
  | 0, _, _ => none
  | fuel + 1, result, spos =>
    match find result old spos with
    | none => some result
    | some pos =>
      let result' := replaceAt result pos old.length new
      if all then replaceLoop old new all fuel result' (pos + new.length) else some result'

/-- `StringReplace` (System.SysUtils.cpp:164-177), run for at most `fuel` passes.
`all` is `Flags & rfReplaceAll`; the declaration gives `Flags` the default 0
(System.SysUtils.hpp:32-33), hence the default `false`. -/
def stringReplace (fuel : Nat) (s old new : Str) (all : Bool := false) : Option Str :=
  replaceLoop old new all fuel s 0

/-- `toXML` (Common.cpp:152-161). None of the five calls passes `rfReplaceAll`, so
each makes a single pass (one unit of fuel). -/
def toXML (s : Str) : Option Str := do
  let r ← stringReplace 1 s "&".toList "&amp;".toList
  let r ← stringReplace 1 r "<".toList "&lt;".toList
  let r ← stringReplace 1 r ">".toList "&gt;".toList
  let r ← stringReplace 1 r "'".toList "&apos;".toList
  let r ← stringReplace 1 r "\"".toList "&quot;".toList
  pure r

end Verif.Text
