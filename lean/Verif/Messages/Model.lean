import Verif.Messages.Spec

/-!
# Messages (src/tool1cd/MessageRegistration.h, MessageRegistration.cpp, Messenger.cpp, DetailedException.cpp)

The global registrator `msreg_g` and one `Messenger`. A file can be opened for appending, and removed, or neither.
-/

namespace Verif.Messages
open Verif Verif.Messages.Spec

/-- What is outside the program: full paths (`TPath::GetFullPath`), the files that may be written; and how many copies of a
`MessageDetails` the compiler makes on the way out of `AddMessage` (MessageRegistration.cpp:26-30): none, if it builds the object in its place, as it may. -/
structure Env where
  absolute : Bytes → Bytes
  rw : Bytes → Bool
  copies : Nat

/-- `Registrator::msreg_m` is set; `Messenger::minimal_state`; `Messenger::logfile`; the file system; what was written to `cerr`. Serves the model of Messenger.cpp:29-35. -/
structure State where
  on : Bool
  least : Level
  logfile : Bytes
  fs : Bytes → Option Bytes
  console : Bytes

/-- `Messenger()` (Messenger.cpp:29-35), before anything was said. -/
def start (fs : Bytes → Option Bytes) : State := ⟨false, .empty, [], fs, []⟩

/-- `MessageDetails::with` (MessageRegistration.h) and `DetailedException::add_detail` (DetailedException.cpp:36-40). -/
def detail (name value : Bytes) : Bytes := name ++ [61] ++ value

/-- One line: `*output << … << endl`. Serves the model of Messenger.cpp:56-62. -/
def line (b : Bytes) : Bytes := b ++ [10]

/-- What `AddDetailedMessage` writes (Messenger.cpp:56-62). -/
def written (text : Bytes) (params : List Bytes) : Bytes := line text ++ (params.map fun p => line (9 :: p)).flatten

/-- `Messenger::AddDetailedMessage` (Messenger.cpp:45-64). A file that cannot be opened takes nothing. -/
def add (e : Env) (s : State) (text : Bytes) (level : Level) (params : List Bytes) : State :=
  if level.rank < s.least.rank then s
  else if s.logfile.isEmpty then { s with console := s.console ++ written text params }
  else if e.rw s.logfile then
    { s with fs := fun q => if q = s.logfile then some ((s.fs q).getD [] ++ written text params) else s.fs q }
  else s

/-- `Registrator::AddDetailedMessage` (MessageRegistration.cpp:77-83). -/
def register (e : Env) (s : State) (text : Bytes) (level : Level) (params : List Bytes) : State :=
  if s.on then add e s text level params else s

/-- A copy that is destroyed logs its text: there are no details in it yet (`~MessageDetails`, MessageRegistration.h). -/
def destroyCopies (e : Env) (text : Bytes) (level : Level) : Nat → State → State
  | 0, s => s
  | n + 1, s => destroyCopies e text level n (register e s text level [])

/-- `msreg_g.AddMessage(text, level).with(…).with(…)`: the object is destroyed at the end of the expression. Serves the model of MessageRegistration.cpp:72-75. -/
def addMessage (e : Env) (s : State) (m : Msg) : State :=
  register e (destroyCopies e m.text m.level e.copies s) m.text m.level (m.details.map fun d => detail d.1 d.2)

/-- `DetailedException::show` (DetailedException.cpp:27-30). -/
def «show» (e : Env) (s : State) (text : Bytes) (details : List (Bytes × Bytes)) : State :=
  register e s text .error (details.map fun d => detail d.1 d.2)

/-- `Messenger::setlogfile` (Messenger.cpp:67-71): an old file is removed. -/
def setLog (e : Env) (s : State) (p : Bytes) : State :=
  { s with logfile := e.absolute p,
           fs := fun q => if q = e.absolute p ∧ e.rw q then none else s.fs q }

/-- One event. `Registrator::Status` (MessageRegistration.cpp:72-75) does nothing. -/
def step (e : Env) (s : State) : Event → State
  | .message m => addMessage e s m
  | .exception t d => «show» e s t d
  | .progress _ => s
  | .logTo p => setLog e s p
  | .least l => { s with least := l }
  | .listen => { s with on := true }
  | .ignore => { s with on := false }

/-- Built on MessageRegistration.cpp:72-75. -/
def run (e : Env) (s : State) (es : List Event) : State := es.foldl (step e) s

end Verif.Messages
