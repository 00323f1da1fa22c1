import Verif.Config.Ext
import Verif.Config.ChainSpec
import Verif.Config.CasSpec
import Verif.Record.Spec

/-! # Specification vocabulary: the configuration of an extension as a container file -/

namespace Verif.Config.Ext.Spec
open Verif Verif.Config Verif.Unicode.Spec Verif.Config.Chain.Spec

/-- A digit of a number to the base 16, in small letters. -/
def hexDigit (d : Nat) : Nat := if d < 10 then 48 + d else 87 + d

/-- The name under which the file with this hash is stored: two digits for each byte. -/
def hashName (h : Bytes) : List Nat := h.flatMap (fun b => [hexDigit (b.toNat / 16), hexDigit (b.toNat % 16)])

/-- A file of the extension: its name, the hash listed for it, and the stored file of this hash. -/
structure Listed where
  name : List Nat
  hash : Bytes
  file : CFile

/-- Name and hash as the list has them. -/
def Listed.entry (x : Listed) : Str × Bytes := (Field.Spec.utf8Str x.name, x.hash)

/-- The files of the container: the list itself and the files listed. -/
def contents (info : CFile) (listing : List Listed) : List (List Nat × CFile) :=
  (codes "configinfo", info) :: listing.map (fun x => (x.name, x.file))

/-- A bound on the length of the container. -/
def room (l : List (List Nat × CFile)) : Nat :=
  2 ^ 17 + 31 + max (2 ^ 16) (12 * l.length) + (l.map fun x => x.2.contents.length + (utf16Text x.1).length + 86).sum

/-- What is assumed of the table of stored files: its records hold the parts of `all` and its blobs their bytes; `info` is one of the files
and lists the files of the extension, whose names are texts, of which no two are the same and none is `configinfo`, and each of the
files listed is stored under its hash. -/
structure Given (a : Around) (cols : List Col) (t : Record.Tab) (rows : List Row) (blob : Bytes) (st : Blob.Spec.State) (all : List CFile)
    (ver : List Nat) (info : CFile) (listing : List Listed) : Prop where
  named : Config.Spec.Named cols
  columns : Config.Spec.Columns cols
  whole : Record.Spec.Whole t rows.length
  held : ∀ j row, rows[j]? = some row → Config.Spec.Held a.clock cols (Record.Spec.record t j) row
  holds : Config.Spec.Says lowerStr rows (all.map CFile.stored)
  names : ∀ f ∈ all, Unicode.Spec.Name f.name ∧ f.parts ≠ []
  distinct : all.Pairwise (fun f g => ¬ SameText f.name g.name)
  texts : ∀ r ∈ rows, Config.Spec.Counts r → ∃ cps, Unicode.Spec.Name cps ∧ r.name = Field.Spec.utf8Str cps
  blobs : Blob.Spec.Represents blob st
  short : blob.length < 2 ^ 32
  parts : ∀ f ∈ all, InBlobs st f
  version : Unicode.Spec.Name ver
  isInfo : info ∈ all ∧ SameText info.name ver
  lists : ∃ plain tt, a.inflate info.contents = (plain, true) ∧ a.parse plain = .ok tt ∧ Config.Spec.Lists tt (listing.map Listed.entry)
  few : listing.length < 2147483648
  growing : listing.Pairwise (fun x y => x.hash.length ≤ y.hash.length)
  listed : ∀ x ∈ listing, Unicode.Spec.Name x.name ∧ x.name ≠ [] ∧ ¬ SameText (codes "configinfo") x.name
  apart : listing.Pairwise (fun x y => ¬ SameText x.name y.name)
  stored : ∀ x ∈ listing, x.file ∈ all ∧ SameText x.file.name (hashName x.hash)
  fits : room (contents info listing) < 2 ^ 31 - 1

/-- What the file is then: a container with the list and the files listed, each under its name, and nothing else; each entry has the name
of one of them and the time of creation of a record of a first part. -/
structure Exported (a : Around) (fuel : Nat) (rows : List Row) (info : CFile) (listing : List Listed) (d : Bytes) (k : Container.Catalog) : Prop where
  opens : Container.openCatalog fuel d = .ok (some (.container k))
  count : k.ents.length = listing.length + 1
  list : Container.content Container.plainCodec fuel k (utf8Text (codes "configinfo")) = .ok (some (some info.contents))
  files : ∀ x ∈ listing, ∀ n, Unicode.Spec.Name n → SameText x.name n →
    Container.content Container.plainCodec fuel k (utf8Text n) = .ok (some (some x.file.contents))
  others : ∀ n, Unicode.Spec.Name n → ¬ SameText (codes "configinfo") n → (∀ x ∈ listing, ¬ SameText x.name n) →
    Container.content Container.plainCodec fuel k (utf8Text n) = .ok (some none)
  entries : ∀ e ∈ k.ents, ∃ r ∈ rows, Config.Spec.Counts r ∧ r.part = 0 ∧ Whole.Spec.Same64 (a.stamp (.ofInt r.created)) e.created ∧
    ∃ n z, e.name = utf8Text (n ++ List.replicate z 0) ∧ (n = codes "configinfo" ∨ ∃ x ∈ listing, n = x.name)

end Verif.Config.Ext.Spec
