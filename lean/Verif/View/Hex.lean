import Verif.Basic

/-!
# The bytes of a large value in the graphical program (src/gtool1cd/QHexEdit/document)

The document a window shows a large value in (BlobViewer/blob_viewer.cpp:141): `QHexDocument` over a `QMemoryBuffer`, with its cursor and
the commands that can be undone. Of Qt 5: `QByteArray::insert`, `remove`, `mid`, `indexOf` and `lastIndexOf`, and `QUndoStack`, which
never merges commands without an `id()`. Offsets and lengths are taken to fit an `int`; the signals sent are left out.
-/

namespace Verif.View.Hex
open Verif

/-! ## `QByteArray` -/

/-- `QByteArray::insert`: a gap before the place is filled with spaces; a negative place is refused. Serves the model of qhexbuffer.cpp:9-13. -/
def baInsert (b : Bytes) (i : Int) (d : Bytes) : Bytes :=
  if i < 0 ∨ d = [] then b
  else if i.toNat ≤ b.length then b.take i.toNat ++ d ++ b.drop i.toNat
  else b ++ List.replicate (i.toNat - b.length) 0x20 ++ d

/-- `QByteArray::remove`. Serves the model of qhexbuffer.cpp:9-13. -/
def baRemove (b : Bytes) (i n : Int) : Bytes :=
  if n ≤ 0 ∨ i < 0 ∨ i ≥ b.length then b else b.take i.toNat ++ b.drop (i.toNat + n.toNat)

/-- `QByteArray::mid` for a place that is not negative: a negative length is all the rest. Serves the model of insertcommand.cpp:10. -/
def baMid (b : Bytes) (i n : Int) : Bytes :=
  if n < 0 then b.drop i.toNat else (b.drop i.toNat).take n.toNat

/-- The first place at or behind `i` where the bytes begin with `p`. Serves the model of qhexdocument.cpp:171-181. -/
def findFrom (p : Bytes) : Nat → Bytes → Option Nat
  | i, [] => if p.isPrefixOf [] then some i else none
  | i, c :: b => if p.isPrefixOf (c :: b) then some i else findFrom p (i + 1) b

/-- `QByteArray::indexOf` for a place that is not negative. Serves the model of qhexdocument.cpp:171-181. -/
def indexOf (b p : Bytes) (i : Nat) : Option Nat := if b.length < i then none else findFrom p i (b.drop i)

/-- The last place before or at `i` where the bytes begin with `p`. Serves the model of qhexdocument.cpp:183-196. -/
def findBack (b p : Bytes) : Nat → Option Nat
  | 0 => if p.isPrefixOf b then some 0 else none
  | i + 1 => if p.isPrefixOf (b.drop (i + 1)) then some (i + 1) else findBack b p i

/-- `QByteArray::lastIndexOf`: −1 is the end. Serves the model of qhexdocument.cpp:183-196. -/
def lastIndexOf (b p : Bytes) (i : Int) : Option Nat := if i < 0 then findBack b p b.length else if b.length < i then none else findBack b p i.toNat

/-! ## Commands (commands/*.cpp) -/

/-- `InsertCommand`, `RemoveCommand` and `ReplaceCommand` with the bytes they keep for undoing. Serves the model of insertcommand.cpp:10. -/
inductive Cmd where
  | insert (off : Int) (data : Bytes)
  | remove (off len : Int) (saved : Bytes)
  | replace (off : Int) (data saved : Bytes)
  deriving DecidableEq, Repr

/-- `QHexBuffer::replace` (buffer/qhexbuffer.cpp:9-13) over `QMemoryBuffer` (buffer/qmemorybuffer.cpp:6-7). -/
def bufReplace (b : Bytes) (off : Int) (data : Bytes) : Bytes := baInsert (baRemove b off data.length) off data

/-- `redo` (insertcommand.cpp:10; removecommand.cpp:11-15; replacecommand.cpp:11-15): the command and the buffer after it. -/
def Cmd.redo : Cmd → Bytes → Cmd × Bytes
  | .insert off data, b => (.insert off data, baInsert b off data)
  | .remove off len _, b => (.remove off len (baMid b off len), baRemove b off len)
  | .replace off data _, b => (.replace off data (baMid b off data.length), bufReplace b off data)

/-- `undo` (insertcommand.cpp:9; removecommand.cpp:9; replacecommand.cpp:9). -/
def Cmd.undo : Cmd → Bytes → Bytes
  | .insert off data, b => baRemove b off data.length
  | .remove off _ saved, b => baInsert b off saved
  | .replace off _ saved, b => bufReplace b off saved

/-! ## The document (qhexdocument.cpp, qhexcursor.cpp) -/

/-- `QHexPosition` (qhexcursor.h:9-20); the width of a line is kept in the document. -/
structure Pos where
  line : Nat
  column : Nat
  nibble : Nat
  deriving DecidableEq, Repr

/-- `QHexDocument`: the bytes, the commands and how many of them are done, the cursor and the width of its lines. Serves the model of qhexcursor.h:16. -/
structure Doc where
  buf : Bytes
  cmds : List Cmd
  done : Nat
  pos : Pos
  sel : Pos
  width : Nat
  inserting : Bool
  deriving DecidableEq, Repr

/-- `offset()` (qhexcursor.h:16). -/
def Doc.offset (d : Doc) (p : Pos) : Nat := p.line * d.width + p.column

/-- A document as `fromDevice` makes it (qhexdocument.cpp:10-27; qhexcursor.cpp:4-14). -/
def Doc.new (b : Bytes) : Doc := ⟨b, [], 0, ⟨0, 0, 1⟩, ⟨0, 0, 1⟩, 16, false⟩

/-- `QUndoStack::push`: the command is done, and those undone before are dropped. Serves the model of qhexdocument.cpp:143-147. -/
def Doc.push (d : Doc) (c : Cmd) : Doc :=
  let r := c.redo d.buf
  { d with buf := r.2, cmds := d.cmds.take d.done ++ [r.1], done := (d.cmds.take d.done).length + 1 }

/-- `undo` (qhexdocument.cpp:80-84) and `QUndoStack::undo`. -/
def Doc.undo (d : Doc) : Doc :=
  match d.done with
  | 0 => d
  | n + 1 => match d.cmds[n]? with
    | none => d
    | some c => { d with buf := c.undo d.buf, done := n }

/-- `redo` (qhexdocument.cpp:86-90) and `QUndoStack::redo`. -/
def Doc.redo (d : Doc) : Doc :=
  match d.cmds[d.done]? with
  | none => d
  | some c => { d with buf := (c.redo d.buf).2, cmds := d.cmds.set d.done (c.redo d.buf).1, done := d.done + 1 }

/-- `insert` (qhexdocument.cpp:143-147). -/
def Doc.insert (d : Doc) (off : Int) (data : Bytes) : Doc := d.push (.insert off data)

/-- `replace` (qhexdocument.cpp:149-153). -/
def Doc.replace (d : Doc) (off : Int) (data : Bytes) : Doc := d.push (.replace off data [])

/-- `remove` (qhexdocument.cpp:155-159). -/
def Doc.remove (d : Doc) (off len : Int) : Doc := d.push (.remove off len [])

/-- `selectionStart` (qhexcursor.cpp:16-28). -/
def Doc.selStart (d : Doc) : Pos :=
  if d.pos.line < d.sel.line then d.pos
  else if d.pos.line = d.sel.line ∧ d.pos.column < d.sel.column then d.pos
  else d.sel

/-- `selectionEnd` (qhexcursor.cpp:30-42). -/
def Doc.selEnd (d : Doc) : Pos :=
  if d.pos.line > d.sel.line then d.pos
  else if d.pos.line = d.sel.line ∧ d.pos.column > d.sel.column then d.pos
  else d.sel

/-- `selectionLength` (qhexcursor.cpp:46). -/
def Doc.selLength (d : Doc) : Int := (d.offset d.selEnd : Int) - d.offset d.selStart + 1

/-- `hasSelection` (qhexcursor.cpp:68): places that differ in the half of a byte differ as well. -/
def Doc.hasSelection (d : Doc) : Bool := decide (d.pos ≠ d.sel)

/-- `selectedBytes` (qhexdocument.cpp:60-66). -/
def Doc.selectedBytes (d : Doc) : Bytes := if d.hasSelection then baMid d.buf (d.offset d.selStart) d.selLength else []

/-- `removeSelection` (qhexdocument.cpp:51-58) with `clearSelection` (qhexcursor.cpp:70-74): the cursor stays where it is. -/
def Doc.removeSelection (d : Doc) : Doc :=
  if d.hasSelection then
    let d := d.remove (d.offset d.selStart) d.selLength
    { d with sel := d.pos }
  else d

/-- `paste` (qhexdocument.cpp:115-132) of bytes that are not empty. -/
def Doc.paste (d : Doc) (data : Bytes) : Doc :=
  let d := d.removeSelection
  if d.inserting then d.insert (d.offset d.pos) data else d.replace (d.offset d.pos) data

/-- `moveTo(qint64)` (qhexcursor.cpp:98-102) after `clearSelection`, and `select(int)` (104). -/
def Doc.mark (d : Doc) (off len : Nat) : Doc :=
  let line := off / d.width
  let column := off - line * d.width
  { d with sel := ⟨line, column, 1⟩, pos := ⟨line, min (d.width - 1) (column + len - 1), 1⟩ }

/-- `searchForward` (qhexdocument.cpp:171-181). -/
def Doc.searchForward (d : Doc) (p : Bytes) : Doc × Option Nat :=
  match indexOf d.buf p (d.offset d.pos) with
  | none => (d, none)
  | some k => (d.mark k p.length, some k)

/-- `searchBackward` (qhexdocument.cpp:183-196). -/
def Doc.searchBackward (d : Doc) (p : Bytes) : Doc × Option Nat :=
  match lastIndexOf d.buf p ((if d.hasSelection then d.offset d.selStart else d.offset d.pos : Nat) - 1 : Int) with
  | none => (d, none)
  | some k => (d.mark k p.length, some k)

/-- What a user does to the bytes. Built on qhexdocument.cpp:155-159. -/
inductive Op where
  | insert (off : Nat) (data : Bytes)
  | remove (off len : Nat)
  | replace (off : Nat) (data : Bytes)
  | undo
  | redo
  deriving DecidableEq, Repr

/-- One of these. Built on qhexdocument.cpp:155-159. -/
def Doc.step (d : Doc) : Op → Doc
  | .insert off data => d.insert off data
  | .remove off len => d.remove off len
  | .replace off data => d.replace off data
  | .undo => d.undo
  | .redo => d.redo

/-- Several of them. Built on qhexcursor.h:16. -/
def Doc.run (d : Doc) (ops : List Op) : Doc := ops.foldl Doc.step d

end Verif.View.Hex
