import Verif.Handle.Model
import Verif.ConfigDir.Spec

/-!
# A storage that is a directory (`ConfigStorageDirectory`, ConfigStorage.cpp:44-100)

Streams are those of property C94. A path is the list of its parts; `..`, links and paths that begin at the root are not modelled. A caller of `readfile`
closes the file before the next call.
-/

namespace Verif.ConfigDir
open Verif Verif.Handle Verif.ConfigDir.Spec

/-- What opening a `std::fstream` finds at a path: a directory cannot be opened; a file can be made in a directory that permits it. Serves the model of ConfigStorage.cpp:53-77. -/
def diskOf (fs : Fs) (p : Path) : Disk :=
  match fs p with
  | some (.file b rw) => ⟨some b, rw⟩
  | some (.dir _) => ⟨none, false⟩
  | none => ⟨none, decide (fs p.dropLast = some (.dir true))⟩

/-- The file system with this at the path. Serves the model of ConfigStorage.cpp:80-87. -/
def putDisk (fs : Fs) (p : Path) (d : Disk) : Fs :=
  match d.bytes with
  | some b => fun q => if q = p then some (.file b d.rw) else fs q
  | none => fs

/-- `fdir / path`. Serves the model of ConfigStorage.cpp:96-99. -/
def at_ (root n : Path) : Path := root ++ n

/-- `ConfigStorageDirectory::fileexists` (ConfigStorage.cpp:96-99). -/
def fileexists (fs : Fs) (root n : Path) : Bool := (fs (at_ root n)).isSome

/-- `ConfigStorageDirectory::readfile` (ConfigStorage.cpp:53-77): the constructor of the stream does not throw. -/
def readfile (fs : Fs) (root n : Path) : Option Handle :=
  if fileexists fs root n then some (openH (diskOf fs (at_ root n))) else none

/-- `CopyFrom(source, 0)` (TStream.cpp:102-114) of a stream over a file into a memory stream: as many bytes as its size says are asked for. -/
def drain (d : Disk) (h : Handle) : Bytes × Handle :=
  let h := { h with pos := 0 }
  if h.size = 0 then ([], h) else read d h h.size

/-- `readfile`, the contents of the stream, `close` (ConfigStorage.h:71). -/
def contents (fs : Fs) (root n : Path) : Outcome (Option Bytes) :=
  match readfile fs root n with
  | none => .ok none
  | some h =>
    let r := drain (diskOf fs (at_ root n)) h
    do
      destroy r.2
      .ok (some r.1)

/-- `ConfigStorageDirectory::writefile` (ConfigStorage.cpp:80-87) of a memory stream. -/
def writefile (fs : Fs) (root n : Path) (b : Bytes) : Outcome (Bool × Fs) :=
  let p := at_ root n
  let c := create (diskOf fs p)
  let w := copyAll c.2 c.1 b
  do
    destroy w.1
    .ok (true, putDisk fs p w.2)

/-- `writefile` of the stream of a file of the same storage: `TFileStream f(filename, fmCreate)` first, then `CopyFrom`, which reads the source. Built on TStream.cpp:102-114. -/
def writeFrom (fs : Fs) (root n : Path) (source : Path) (h : Handle) : Outcome (Bool × Fs) :=
  let p := at_ root n
  let c := create (diskOf fs p)
  let fs' := putDisk fs p c.2
  let r := drain (diskOf fs' (at_ root source)) h
  let w := if h.size = 0 then (c.1, c.2) else (write c.2 c.1 r.1).2
  do
    destroy w.1
    destroy r.2
    .ok (true, putDisk fs' p w.2)

/-- `readfile` of the source, `writefile` of its stream, `close`. Built on ConfigStorage.cpp:53-77. -/
def copyfile (fs : Fs) (root source n : Path) : Outcome (Bool × Fs) :=
  match readfile fs root source with
  | none => .ok (false, fs)
  | some h => writeFrom fs root n source h

/-- One call. Built on ConfigStorage.cpp:80-87. -/
def step (root : Path) (fs : Fs) : Op → Outcome (Out × Fs)
  | .write n b => do
    let r ← writefile fs root n b
    .ok (.wrote r.1, r.2)
  | .copy s n => do
    let r ← copyfile fs root s n
    .ok (.wrote r.1, r.2)
  | .read n => do
    let r ← contents fs root n
    .ok (.content r, fs)
  | .there n => .ok (.is (fileexists fs root n), fs)

/-- Built on ConfigStorage.cpp:80-87. -/
def run (root : Path) (fs : Fs) : List Op → Outcome (List Out × Fs)
  | [] => .ok ([], fs)
  | op :: ops => do
    let r ← step root fs op
    let rest ← run root r.2 ops
    .ok (r.1 :: rest.1, rest.2)

end Verif.ConfigDir
