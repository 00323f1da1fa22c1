import Verif.View.GridTheorems

/-! # The grid of the records of a table: cases that meet the hypotheses, and a finding (C113) -/

namespace Verif.View
open Verif Record

/-- Ten records of seven bytes: a logical field `OK`, a text `T` of one character that may be null, and two bytes `N` of a number. -/
def exGrid (index : Option Index.Base) : Grid where
  tab := ⟨(List.range 10).flatMap fun i => [UInt8.ofNat (i % 2), UInt8.ofNat (i / 5), UInt8.ofNat (i % 4), UInt8.ofNat (65 + i), 0, 0x10, 0x50], 7⟩
  cols := [⟨[79, 75], ⟨1, false, ⟨.bool, 1, 0, false⟩⟩⟩, ⟨[84], ⟨2, true, ⟨.char, 1, 0, false⟩⟩⟩, ⟨[78], ⟨5, false, ⟨.numeric, 3, 0, false⟩⟩⟩]
  index := index

theorem exGrid_plain : Spec.Rows (exGrid none) (List.range 10) :=
  .plain rfl ⟨by decide, by decide, by decide⟩

theorem exGrid_sorted : Spec.Rows (exGrid (some Index.exIndex)) [5, 0, 1, 3] := by
  have hp0 : Index.Spec.PageAt Index.exIndex 40 Index.exBranch :=
    ⟨Index.exIndex.file.take 40, Index.exIndex.file.drop 80, by decide +kernel, by decide, by decide⟩
  have hp1 : Index.Spec.PageAt Index.exIndex 80 (Index.exLeaf 120 5 65536) :=
    ⟨Index.exIndex.file.take 80, Index.exIndex.file.drop 120, by decide +kernel, by decide, by decide⟩
  have hp2 : Index.Spec.PageAt Index.exIndex 120 (Index.exLeaf 4294967295 65537 3) :=
    ⟨Index.exIndex.file.take 120, Index.exIndex.file.drop 160, by decide +kernel, by decide, by decide⟩
  refine .sorted (ls := [[5, 0], [1, 3]]) (n := 10) (root := 40) (len := 1) (c := 1) (l := 80) rfl ⟨by decide, by decide, by decide⟩ rfl
    ⟨by decide, by decide, by decide, by decide, by decide⟩ hp0 (by decide) (by decide) ?_ ?_ (by decide) (by decide)
  · exact .branch hp0 ⟨⟨0, by decide, by decide⟩, ⟨Index.exBranch.take 17, Index.exBranch.drop 21, by decide, by decide, by decide⟩⟩
      (.leaf hp1 Index.exLeaf1)
  · exact .more hp1 Index.exLeaf1 (by decide) (.last hp2 Index.exLeaf2)

/-- Row 0 of the sorted grid is record 5: `true`, `F`; record 0 in row 1 has no text. -/
example (x : Rest) (sh : Field.Show) : Spec.Answers x sh (exGrid (some Index.exIndex)) 0 0 .display (.text "true".toList) ∧
    Spec.Answers x sh (exGrid (some Index.exIndex)) 0 1 .display (.text "F".toList) ∧
    Spec.Answers x sh (exGrid (some Index.exIndex)) 1 1 .display (.text "{NULL}".toList) ∧
    Spec.Answers x sh (exGrid (some Index.exIndex)) 0 7 .font .italic ∧
    Spec.Answers x sh (exGrid (some Index.exIndex)) 1 2 .align .right := by
  refine ⟨?_, ?_, ?_, ?_, ?_⟩
  · exact cell_shows_value_partial x sh _ _ exGrid_sorted 0 5 0 _ _ rfl rfl
      (.yes (b := 1) rfl (by decide) ⟨[1], [1, 70, 0, 0x10, 0x50], 1, by decide, rfl, by decide⟩)
  · exact cell_shows_value_partial x sh _ _ exGrid_sorted 0 5 1 _ _ rfl rfl
      (.char (cps := [70]) rfl (by decide) (by decide) ⟨[1, 1], [0x10, 0x50], 1, by decide, rfl, by decide⟩)
  · exact (null_cell x sh _ _ exGrid_sorted 1 0 1 _ rfl rfl ⟨rfl, [0, 0], [65, 0, 0x10, 0x50], by decide, rfl⟩).1
  · exact (removed_in_italics x sh _ _ exGrid_sorted 0 5 7 rfl).2 (by decide)
  · exact numbers_to_the_right x sh _ _ exGrid_sorted 1 0 2 _ rfl rfl

/-- Row 5 of the grid without an index is the same record. -/
example (x : Rest) (sh : Field.Show) : Spec.Answers x sh (exGrid none) 5 1 .display (.text "F".toList) :=
  cell_shows_value_partial x sh _ _ exGrid_plain 5 5 1 _ _ rfl rfl
    (.char (cps := [70]) rfl (by decide) (by decide) ⟨[1, 1], [0x10, 0x50], 1, by decide, rfl, by decide⟩)

/-- A declared reference. -/
example : Spec.Declared ⟨[95, 82, 101, 102], ⟨1, false, ⟨.binary, 16, 0, true⟩⟩⟩ :=
  ⟨⟨.binary, false, 16, 0, false⟩, by decide, by decide +kernel⟩

/-- The record of a large value at block 7 with five bytes. -/
def exLargeGrid (t : FType) : Grid where
  tab := ⟨[0, 7, 0, 0, 0, 5, 0, 0, 0], 9⟩
  cols := [⟨[66], ⟨1, false, ⟨t, 8, 0, false⟩⟩⟩]
  index := none

theorem exLarge_rows (t : FType) : Spec.Rows (exLargeGrid t) (List.range 1) := .plain rfl ⟨by simp [exLargeGrid], by simp [exLargeGrid], by simp [exLargeGrid]⟩

example (sh : Field.Show) : Spec.Answers ⟨fun _ _ => .ok [72, 0, 105, 0], fun _ => ([], false), 0⟩ sh (exLargeGrid .text) 0 0 .edit (.text "Hi".toList) :=
  (large_text_partial _ sh _ _ (exLarge_rows .text) 0 0 0 _ 7 5 [72, 0, 105, 0] [72, 0, 105, 0] rfl rfl (by decide) (by decide)
    ⟨[0], [], 1, by decide, rfl, by decide⟩ (by decide) rfl (.inr ⟨rfl, rfl⟩) (by decide) (by decide)).2 [72, 105] (.inr rfl) (by decide) (by decide)

example (sh : Field.Show) : Spec.Answers ⟨fun _ _ => .ok [1, 2], fun _ => ([], true), 0⟩ sh (exLargeGrid .image) 0 0 .edit (.text "{catalog}".toList) :=
  empty_value_is_a_container _ sh _ _ (exLarge_rows .image) 0 0 0 _ 7 5 [1, 2] rfl rfl (.inr (.inr rfl)) (by decide) (by decide)
    ⟨[0], [], 1, by decide, rfl, by decide⟩ (by decide) rfl rfl

/-- A grid of one record whose text of one character is half of a surrogate pair. -/
def exHalfGrid : Grid where
  tab := ⟨[0, 0x00, 0xD8], 3⟩
  cols := [⟨[84], ⟨1, false, ⟨.char, 1, 0, false⟩⟩⟩]
  index := none

/-- **C113, finding.** A text that is not well-formed UTF-16 is not shown in any way: the exception leaves the model of the grid,
both when the cell is drawn and when it is copied. -/
theorem malformed_text_escapes (x : Rest) (sh : Field.Show) : Spec.Rows exHalfGrid [0] ∧ gridData x sh exHalfGrid 0 0 .display = .throw ∧
    gridData x sh exHalfGrid 0 0 .edit = .throw :=
  ⟨.plain (n := 1) rfl ⟨by decide, by decide, by decide⟩, rfl, rfl⟩

end Verif.View
