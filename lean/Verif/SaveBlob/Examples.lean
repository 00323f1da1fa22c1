import Verif.SaveBlob.Theorems
import Verif.Blob.MoreTheorems
import Verif.Format.Examples

/-! # C100: concrete cases -/

namespace Verif.SaveBlob.Example
open Verif Verif.Handle Verif.Format Verif.Unicode.Spec Verif.Format.Spec Verif.Value.Spec Verif.SaveBlob Verif.SaveBlob.Spec
open Verif.Format.Example (z value value_stored made)

/-- Every value (of less than 4 GiB) can be the blob of a file. -/
theorem holding_any (b : Bytes) (hb : b ≠ []) (hl : (b.length + 249) / 250 + 1 < 2 ^ 24) : ∃ f start, Holding f start b.length b := by
  have h0 := Blob.empty_file (List.replicate 256 0) List.length_replicate (by decide)
  obtain ⟨f, start, chain, free, _, hr, hlen, _⟩ := Blob.store_blob_partial _ _ h0 b hb (by
    simp only [List.length_replicate]
    omega)
  simp only [List.length_replicate] at hlen
  exact ⟨f, start, by omega, hb, rfl, _, hr, ⟨start, chain, b⟩, by simp, rfl, rfl⟩

instance decSame : ∀ a b : List Nat, Decidable (SameText a b)
  | [], [] => .isTrue trivial
  | [], _ :: _ => .isFalse (fun h => h)
  | _ :: _, [] => .isFalse (fun h => h)
  | x :: a, y :: b =>
    have := decSame a b
    have : Decidable (SameLetter x y) := by unfold SameLetter; infer_instance
    inferInstanceAs (Decidable (SameLetter x y ∧ SameText a b))

/-- The disk has another file there. -/
def disk : Disk := ⟨some [9, 9, 9, 9, 9, 9, 9, 9], true⟩

theorem table_name (s : String) (h : ∀ c ∈ cps s, 0 < c ∧ c < 128) : Name (cps s) := name_ascii s h

/-- `V8users`: masked. -/
example : ∃ f start fuel, saveBlob z fuel 2 disk ⟨true, utf8Text (cps "V8users"), some f⟩ (.ok (utf8Text (cps "1"))) ⟨false, start, 6⟩ true =
    .ok (some (true, ⟨some [7, 8, 9], true⟩)) := by
  obtain ⟨f, start, h⟩ := holding_any (userRecord [1, 2] [7, 8, 9]) (by decide) (by decide)
  exact ⟨f, start, f.length / 256, content_saved_partial z _ 2 disk rfl true (cps "V8users") (cps "1") (table_name _ (by decide))
    (table_name _ (by decide)) f start _ _ _ h (Nat.le_refl _) (by decide)
    (.users [1, 2] [7, 8, 9] rfl (Or.inr (by decide)) (by decide) (by decide))⟩

/-- The same record of `Params`. -/
example : ∃ f start fuel, saveBlob z fuel 2 disk ⟨true, utf8Text (cps "Params"), some f⟩ (.ok (utf8Text (cps "Users.usr"))) ⟨false, start, 6⟩ true =
    .ok (some (true, ⟨some [7, 8, 9], true⟩)) := by
  obtain ⟨f, start, h⟩ := holding_any (userRecord [1, 2] [7, 8, 9]) (by decide) (by decide)
  exact ⟨f, start, f.length / 256, content_saved_partial z _ 2 disk rfl true (cps "Params") (cps "Users.usr") (table_name _ (by decide))
    (table_name _ (by decide)) f start _ _ _ h (Nat.le_refl _) (by decide)
    (.users [1, 2] [7, 8, 9] rfl (Or.inl (by decide)) (by decide) (by decide))⟩

/-- Compression with one mark in front. -/
def zip : Unzip
  | 0x78 :: b => .ok b
  | _ => .throw

/-- A text of `CONFIG`, compressed, under a short name; in `PARAMS` compressed twice. -/
example : ∃ f start fuel, saveBlob zip fuel 2 disk ⟨true, utf8Text (cps "CONFIG"), some f⟩ (.ok (utf8Text (cps "root"))) ⟨false, start, 11⟩ true =
    .ok (some (true, ⟨some value, true⟩)) := by
  obtain ⟨f, start, h⟩ := holding_any (0x78 :: value) (by decide) (by decide)
  exact ⟨f, start, f.length / 256, text_saved zip _ 2 disk rfl (cps "CONFIG") (cps "root") (table_name _ (by decide))
    (table_name _ (by decide)) f start _ _ _ _ h (Nat.le_refl _) (by decide) (by unfold UsersRow; decide) false (by unfold Twice; decide)
    (.once rfl) value_stored (by decide) (by decide)⟩

example : ∃ f start fuel, saveBlob zip fuel 2 disk ⟨true, utf8Text (cps "PARAMS"), some f⟩ (.ok (utf8Text (cps "root"))) ⟨false, start, 12⟩ true =
    .ok (some (true, ⟨some value, true⟩)) := by
  obtain ⟨f, start, h⟩ := holding_any (0x78 :: 0x78 :: value) (by decide) (by decide)
  exact ⟨f, start, f.length / 256, text_saved zip _ 2 disk rfl (cps "PARAMS") (cps "root") (table_name _ (by decide))
    (table_name _ (by decide)) f start _ _ _ _ h (Nat.le_refl _) (by decide) (by unfold UsersRow; decide) true (by unfold Twice; decide)
    (.both rfl rfl) value_stored (by decide) (by decide)⟩

/-- The same value of `CONFIG` is inflated once. -/
example : ∃ f start fuel, saveBlob zip fuel 2 disk ⟨true, utf8Text (cps "CONFIG"), some f⟩ (.ok (utf8Text (cps "root"))) ⟨false, start, 12⟩ true =
    .ok (some (true, ⟨some (0x78 :: value), true⟩)) := by
  obtain ⟨f, start, h⟩ := holding_any (0x78 :: 0x78 :: value) (by decide) (by decide)
  exact ⟨f, start, f.length / 256, content_saved_partial zip _ 2 disk rfl true (cps "CONFIG") (cps "root") (table_name _ (by decide))
    (table_name _ (by decide)) f start _ _ _ h (Nat.le_refl _) (by decide) (.plain false rfl (by unfold UsersRow; decide) (by unfold Twice; decide)
    (.once rfl) (by decide) (by decide))⟩

/-- Values of the user. -/
example : ∃ f start fuel, saveBlob z fuel 2 disk ⟨false, utf8Text (cps "_Reference1"), some f⟩ (.ok (utf8Text (cps "1"))) ⟨false, start, 27⟩ true =
    .ok (some (true, ⟨some [5, 6], true⟩)) := by
  obtain ⟨f, start, h⟩ := holding_any ([1, 1] ++ valueOf [9, 9] [1, 2, 3, 4] [5, 6] [7]) (by decide) (by decide)
  exact ⟨f, start, f.length / 256, content_saved_partial z _ 2 disk rfl false (cps "_Reference1") (cps "1") (table_name _ (by decide))
    (table_name _ (by decide)) f start _ _ _ h (Nat.le_refl _) (by decide)
    (.value [9, 9] [1, 2, 3, 4] [5, 6] [7] rfl rfl (by decide) (by decide) (by decide) .plain)⟩

example : ∃ f start fuel, saveBlob z fuel 2 disk ⟨false, utf8Text (cps "_Reference1"), some f⟩ (.ok (utf8Text (cps "1"))) ⟨false, start, 3⟩ true =
    .ok (some (true, ⟨some [3, 1, 4], true⟩)) := by
  obtain ⟨f, start, h⟩ := holding_any [3, 1, 4] (by decide) (by decide)
  exact ⟨f, start, f.length / 256, content_saved_partial z _ 2 disk rfl false (cps "_Reference1") (cps "1") (table_name _ (by decide))
    (table_name _ (by decide)) f start _ _ _ h (Nat.le_refl _) (by decide) (.other rfl (by intro b0 rest e; cases e; decide))⟩

/-- Without unpacking. -/
example : ∃ f start fuel, saveBlob z fuel 2 disk ⟨true, utf8Text (cps "CONFIG"), some f⟩ (.ok (utf8Text (cps "root"))) ⟨false, start, 10⟩ false =
    .ok (some (true, ⟨some value, true⟩)) := by
  obtain ⟨f, start, h⟩ := holding_any value (by decide) (by decide)
  exact ⟨f, start, f.length / 256, raw_saved z _ 2 disk rfl true _ f _ start _ _ h (Nat.le_refl _) (by decide)⟩

/-- Nothing to save. -/
example : saveBlob z 5 2 disk ⟨true, utf8Text (cps "CONFIG"), none⟩ (.ok []) ⟨true, 5, 5⟩ true = .ok (some (false, disk)) :=
  nothing_saved _ _ _ _ _ _ _ _ (Or.inl rfl)

/-- A place where no file can be made. -/
example : ∃ f start fuel, saveBlob z fuel 2 ⟨none, false⟩ ⟨true, utf8Text (cps "CONFIG"), some f⟩ (.ok (utf8Text (cps "root"))) ⟨false, start, 10⟩ false =
    .ok (some (true, ⟨none, false⟩)) := by
  obtain ⟨f, start, h⟩ := holding_any value (by decide) (by decide)
  exact ⟨f, start, f.length / 256, unwritable_reported_saved z _ 2 _ ⟨rfl, rfl⟩ true _ f _ start _ _ h (Nat.le_refl _) (by decide)⟩

/-- Nothing, compressed. -/
example : ∃ f start fuel, saveBlob zip fuel 2 disk ⟨true, utf8Text (cps "CONFIG"), some f⟩ (.ok (utf8Text (cps "root"))) ⟨false, start, 1⟩ true =
    .ok (some (true, ⟨some [0xff, 0xff, 0xff, 0x7f, 0, 2, 0, 0, 0, 0, 0, 0, 0, 0, 0, 0], true⟩)) := by
  obtain ⟨f, start, h⟩ := holding_any [0x78] (by decide) (by decide)
  exact ⟨f, start, f.length / 256, empty_saved_as_container zip _ 2 disk rfl (cps "CONFIG") (cps "root") (table_name _ (by decide))
    (table_name _ (by decide)) f start _ _ h (Nat.le_refl _) (by decide) (by unfold UsersRow; decide) false (by unfold Twice; decide) (.once rfl)⟩

/-- A value of `FILES` that begins with the mark of compression, compressed once. -/
example : ∃ f start fuel, saveBlob zip fuel 2 disk ⟨true, utf8Text (cps "FILES"), some f⟩ (.ok (utf8Text (cps "a"))) ⟨false, start, 4⟩ true =
    .ok (some (true, ⟨some [5, 6], true⟩)) := by
  obtain ⟨f, start, h⟩ := holding_any [0x78, 0x78, 5, 6] (by decide) (by decide)
  exact ⟨f, start, f.length / 256, inflated_twice zip _ 2 disk rfl (cps "FILES") (cps "a") (table_name _ (by decide))
    (table_name _ (by decide)) f start _ _ [0x78, 5, 6] _ h (Nat.le_refl _) (by decide) (by unfold UsersRow; decide) (by decide) (by decide) rfl rfl
    (by decide) (by decide)⟩

/-- A container with one text in it. -/
example : ∃ f start length fuel, saveBlob z fuel 2 disk ⟨true, utf8Text (cps "CONFIG"), some f⟩ (.ok (utf8Text (cps "root"))) ⟨false, start, length⟩ true = .ub := by
  have hl : Container.Allowed (codec z false) Container.LAST Container.blankCatalog (made ++ [.flush]) := by decide +kernel
  obtain ⟨k, s, ls, e, hi, _, _, _, hx, _⟩ := flushed_session Container.LAST (Nat.le_refl _) made hl
  have hlen := Container.phys_length hi.phys
  have hne : k.cat.data.data ≠ [] := by intro h; rw [h] at hlen; simp at hlen
  have hL : Container.LAST = 2147483647 := rfl
  unfold Container.extent at hx
  obtain ⟨f, start, h⟩ := holding_any k.cat.data.data hne (by omega)
  exact ⟨f, start, _, Container.LAST, container_undefined z Container.LAST 0 (Nat.le_refl _) disk (cps "CONFIG") (cps "root") (table_name _ (by decide))
    (table_name _ (by decide)) f start _ _ h (by have := h.1; omega) (by omega) (by unfold UsersRow; decide) false false (by unfold Twice; decide) made k hl e rfl
    [0x41] value [] (by decide) (by decide)⟩

/-- Of the two values of a table only the first is saved. -/
example : ∀ t : Tree, (∀ p, ["t.xml.blob".toList] <+: p → p ≠ ["t.xml.blob".toList] → t p = none) → ∀ b b',
    t.writeAll [(["t.xml.blob".toList, "b2".toList], b), (["t.xml.blob".toList, "b2".toList, "a1".toList], b')]
      ["t.xml.blob".toList, "b2".toList, "a1".toList] = none := by
  intro t ht b b'
  exact only_first_saved id Export.demoAcc Export.demoGet "T1".toList Export.demoCols [Export.demoCols[0]] [⟨true, [1, 0]⟩] [] true true 0 "t.xml".toList _
    ["t.xml.blob".toList, "b2".toList] [["t.xml.blob".toList, "b2".toList, "a1".toList]] rfl t ht _ (by simp) _ (by simp)

end Verif.SaveBlob.Example
