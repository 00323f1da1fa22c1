import Verif.Handle.Theorems
import Verif.Temp.Spec

/-!
# Temporary streams (src/tool1cd/TempStream.cpp)

All processes of all users use one directory, `t1cd` in the directory for temporary files. The operating system is POSIX: a file that is removed stays
readable and writable through the streams open on it, and `remove_all` does not fail. The functions below are taken to be atomic. The names of
`unique_path` are random; here they are numbers, each used once.
-/

namespace Verif.Temp
open Verif Verif.Handle Verif.Handle.Spec Verif.Temp.Spec

/-- A `TTempStream`: the name of its file, the file it was last opened on, and the `TFileStream`. Serves the model of TempStream.cpp:66-68, 77-83. -/
structure TStream where
  name : Nat
  disk : Disk
  h : Handle

/-- A process: whether `tempcat` is set, its streams, and whether it did something undefined. Serves the model of TempStream.cpp:52-63. -/
structure Proc where
  init : Bool
  streams : List (Option TStream)
  dead : Bool

/-- Serves the model of TempStream.cpp:52-63. -/
def Proc.fresh : Proc := ⟨false, [], false⟩

/-- The directory: whether it is there, the names in it, and the next name; the processes. Serves the model of TempStream.cpp:34-41. -/
structure World where
  dir : Bool
  files : List Nat
  next : Nat
  procs : Nat → Proc

/-- Built on TempStream.cpp:34-41. -/
def World.empty : World := ⟨false, [], 0, fun _ => .fresh⟩

/-- Serves the model of TempStream.cpp:34-41. -/
def World.setProc (w : World) (p : Nat) (x : Proc) : World := { w with procs := fun q => if q = p then x else w.procs q }

/-- `DelayedInitTempPath` (TempStream.cpp:34-41), called by `get_temp_name` if `tempcat` is empty (77-81). -/
def initTemp (w : World) (p : Nat) : World :=
  if (w.procs p).init then w else { w with dir := true, files := [] }.setProc p { w.procs p with init := true }

/-- The constructor (TempStream.cpp:66-68, 77-83): a new name in the directory, opened with `fmCreate`, which fails if the directory is not
there. -/
def newStream (w : World) (p : Nat) : World :=
  let w := initTemp w p
  let hd := create ⟨none, w.dir⟩
  { w with files := if w.dir then w.next :: w.files else w.files, next := w.next + 1 }.setProc p
    { w.procs p with streams := (w.procs p).streams ++ [some (TStream.mk w.next hd.2 hd.1)] }

/-- What a stream finds: its open file, or what is in the directory under its name (TFileStream.cpp:63-73). -/
def seen (w : World) (s : TStream) : Disk :=
  if s.h.own && s.h.isOpen then s.disk else if s.name ∈ w.files then s.disk else ⟨none, w.dir⟩

/-- A process whose behaviour is undefined is taken to hang until it ends or is killed. Serves the model of TFileStream.cpp:76-92. -/
def hang (w : World) (p : Nat) : World := w.setProc p { w.procs p with dead := true }

/-- A use of a stream (TFileStream.cpp:76-92; TStream.cpp:58-81). -/
def useStream (w : World) (p i : Nat) (op : Op) : World × Outcome Out :=
  match (w.procs p).streams[i]? with
  | some (some s) =>
    match Handle.step (seen w s) s.h op with
    | .ok (o, h, d) => (w.setProc p { w.procs p with streams := (w.procs p).streams.set i (some { s with disk := d, h := h }) }, .ok o)
    | .throw => (w, .throw)
    | .ub => (hang w p, .ub)
  | _ => (hang w p, .ub)

/-- The destructor (TempStream.cpp:71-73; TFileStream.cpp:53-56): the file is not removed. -/
def dropStream (w : World) (p i : Nat) : World × Outcome Out :=
  match (w.procs p).streams[i]? with
  | some (some s) =>
    match destroy s.h with
    | .ok _ => (w.setProc p { w.procs p with streams := (w.procs p).streams.set i none }, .ok .done)
    | .throw => (w, .throw)
    | .ub => (hang w p, .ub)
  | _ => (hang w p, .ub)

/-- The static destructor (TempStream.cpp:52-63): `cleanup` is never changed; with an empty path `remove_all` does nothing. -/
def exitProc (w : World) (p : Nat) : World :=
  (if (w.procs p).init then { w with dir := false, files := [] } else w).setProc p .fresh

/-- One event. Built on TempStream.cpp:52-63. -/
def event (w : World) (e : Event) : World × Outcome Out :=
  match e.what with
  | .exit => (exitProc w e.proc, .ok .done)
  | .crash => (w.setProc e.proc .fresh, .ok .done)
  | .new => if (w.procs e.proc).dead then (w, .ub) else (newStream w e.proc, .ok .done)
  | .use i op => if (w.procs e.proc).dead then (w, .ub) else useStream w e.proc i op
  | .drop i => if (w.procs e.proc).dead then (w, .ub) else dropStream w e.proc i

/-- A schedule: the world at its end. Built on TempStream.cpp:34-41. -/
def run (w : World) : List Event → World
  | [] => w
  | e :: es => run (event w e).1 es

/-- What process `p` sees in a schedule. Built on TempStream.cpp:34-41. -/
def view (p : Nat) (w : World) : List Event → List (Outcome Out)
  | [] => []
  | e :: es => if e.proc = p then (event w e).2 :: view p (event w e).1 es else view p (event w e).1 es

end Verif.Temp
