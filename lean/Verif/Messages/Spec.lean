import Verif.Basic

/-!
# What is expected of the messages

A message has a text, a level and details, each a name and a value. The log has, for each message in its turn, a line with the text and
a line for each detail, with a tab before it.
-/

namespace Verif.Messages.Spec
open Verif

/-- The levels (`enum class MessageState`, MessageRegistration.h). -/
inductive Level where
  | empty | hint | successful | info | warning | error
  deriving DecidableEq, Repr

def Level.rank : Level → Int
  | .empty => -1
  | .hint => 0
  | .successful => 1
  | .info => 2
  | .warning => 3
  | .error => 4

structure Msg where
  text : Bytes
  level : Level
  details : List (Bytes × Bytes)
  deriving DecidableEq, Repr

/-- The lines of a message. -/
def lines (m : Msg) : List Bytes := m.text :: m.details.map fun d => 9 :: (d.1 ++ 61 :: d.2)

/-- The text of a log. -/
def text (ms : List Msg) : Bytes := ((ms.flatMap lines).map (· ++ [10])).flatten

/-- What happens in a run of the program: the library reports a message, or shows an exception, or its progress; the user sets the log file and the least level; the
program begins and ends to listen to the library. -/
inductive Event where
  | message (m : Msg)
  | exception (text : Bytes) (details : List (Bytes × Bytes))
  | progress (text : Bytes)
  | logTo (path : Bytes)
  | least (l : Level)
  | listen
  | ignore

/-- The messages that are to be seen, in their order. -/
def seen : Bool → Level → List Event → List Msg
  | _, _, [] => []
  | on, l, .message m :: es => if on ∧ l.rank ≤ m.level.rank then m :: seen on l es else seen on l es
  | on, l, .exception t d :: es => if on then ⟨t, .error, d⟩ :: seen on l es else seen on l es
  | on, l, .progress _ :: es => seen on l es
  | on, l, .logTo _ :: es => seen on l es
  | on, _, .least l :: es => seen on l es
  | _, l, .listen :: es => seen true l es
  | _, l, .ignore :: es => seen false l es

/-- A message whose lines can be told from those of others: no newline in it, no tab before it, no `=` in a name. -/
def Plain (m : Msg) : Prop :=
  10 ∉ m.text ∧ m.text.head? ≠ some 9 ∧ ∀ d ∈ m.details, 10 ∉ d.1 ∧ 10 ∉ d.2 ∧ 61 ∉ d.1

end Verif.Messages.Spec
