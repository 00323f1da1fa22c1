import Verif.Format.Findings

/-! # C97: concrete cases -/

namespace Verif.Format.Example
open Verif Verif.Unicode.Spec Verif.Container Verif.Format Verif.Format.Spec

/-- Nothing is compressed. -/
def z : Unzip := fun _ => .throw

/-- `{1,"a"}` behind the mark of UTF-8, and behind that of UTF-16. -/
def text : Bytes := Cli.asc "{1,\"a\"}"
def value : Bytes := mark8 ++ text
def value16 : Bytes := mark16 ++ utf16Text ("{1,\"a\"}".toList.map Char.toNat)

theorem text_parses : Parses text := by
  intro _
  have : (match Tree.parseText (shown text) with | .ok _ => true | _ => false) = true := by decide +kernel
  revert this
  cases Tree.parseText (shown text) with
  | ok n => intro _; exact ⟨n, rfl⟩
  | throw => intro h; cases h
  | ub => intro h; cases h

theorem text_whole : Bracket text → Whole ((body text).take 15) := by
  intro _
  exact ⟨"{1,\"a\"}".toList.map Char.toNat, by unfold Scalar; decide, by decide⟩

theorem value_stored : Stored value text := .plain (.utf8 text)

theorem value16_stored : Stored value16 text := by
  have : text = utf8Text ("{1,\"a\"}".toList.map Char.toNat) := by decide
  rw [this]
  exact .plain (.utf16 _ (by unfold Scalar; decide))

/-- The same behind the header of a spreadsheet and behind that of a schema. -/
def inSheet : Bytes := Spec.sheet ++ [1, 2, 3, 4, 5, 6] ++ value
def inSchema : Bytes := Spec.schema ++ List.replicate 16 7 ++ value

theorem inSheet_stored : Stored inSheet text := .sheet ⟨_, rfl⟩ rfl (.utf8 text)
theorem inSchema_stored : Stored inSchema text := .schema ⟨_, rfl⟩ rfl (.utf8 text)

/-- The hypotheses of `text_tested_partial` are met, in all four forms. -/
example : ∀ x ∈ [value, value16, inSheet, inSchema], testStream z 5 1 false (Cli.asc "CONFIG/root") x = .ok (some true) := by
  have key : ∀ x, x ≠ [] → Stored x text → isCatalog x = .ok false → testStream z 5 1 false (Cli.asc "CONFIG/root") x = .ok (some true) :=
    fun x h0 h1 h2 => (text_tested_partial z 5 0 false _ x x text (by decide) h0 (.raw rfl) h2 h1 (fun h => absurd h (by decide)) text_whole).1 text_parses
  intro x hx
  simp only [List.mem_cons, List.not_mem_nil, or_false] at hx
  rcases hx with rfl | rfl | rfl | rfl
  · exact key _ (by decide) value_stored (by decide)
  · exact key _ (by decide) value16_stored (by decide)
  · exact key _ (by decide) inSheet_stored (by decide)
  · exact key _ (by decide) inSchema_stored (by decide)

/-- So does an empty text behind a spreadsheet's header, in UTF-8; in UTF-16 it does not. -/
example : testStream z 5 1 false (Cli.asc "CONFIG/root") (Spec.sheet ++ [1, 2, 3, 4, 5, 6] ++ mark8) = .ok (some true) :=
  (text_tested_partial z 5 0 false _ _ _ [] (by decide) (by decide) (.raw rfl) (by decide) (.sheet ⟨_, rfl⟩ rfl (.utf8 [])) (by decide)
    (fun h => absurd h not_bracket_nil)).1 parses_nil
example : testStream z 5 1 false (Cli.asc "CONFIG/root") (Spec.sheet ++ [1, 2, 3, 4, 5, 6] ++ mark16) = .throw :=
  empty_sheet_reported z 5 0 false _ _ _ (by decide) (by decide) ⟨_, rfl⟩ rfl (.raw rfl)

example : isCatalog value16 = .ok false := text_no_container value16_stored (by decide) (by decide)

/-- A bracket that is not closed is reported. -/
example : testStream z 5 1 false (Cli.asc "CONFIG/root") (mark8 ++ Cli.asc "{1") = .throw := by decide +kernel

/-- An infobase. -/
def fields : List Bytes := ["FileName", "Creation", "MODIFIED", "ATTRIBUTES", "DATASIZE", "BINARYDATA", "PARTNO"].map Cli.asc
def root : Rec := ⟨false, Cli.asc "root", Cli.asc "10", .ok value⟩
def users : Rec := ⟨false, Cli.asc "users.usr", Cli.asc "3", .ok [1, 2, 3]⟩
def gone : Rec := ⟨true, [], [], .throw⟩
def db : Db where
  config := some ⟨Cli.asc "CONFIG", fields, [root, gone]⟩
  configsave := some ⟨Cli.asc "CONFIGSAVE", fields.take 6, []⟩
  params := some ⟨Cli.asc "PARAMS", fields, [users]⟩
  files := some ⟨Cli.asc "FILES", fields, [⟨false, [], [], .throw⟩]⟩
  dbschema := some ⟨Cli.asc "DBSCHEMA", [Cli.asc "SERIALIZEDDATA"], [gone, ⟨false, [], [], .ok value⟩]⟩

theorem text_sound (path : Bytes) : Sound z false path value :=
  Or.inr (Or.inr ⟨value, text, .raw rfl, by decide, value_stored, by decide, text_whole, text_parses⟩)

theorem fields_ok (n : Nat) (h : n = 6 ∨ n = 7) : ∃ ns : List (List Nat), (∀ m ∈ ns, Name m) ∧ FileFields ns ∧ fields.take n = ns.map utf8Text := by
  refine ⟨(["FileName", "Creation", "MODIFIED", "ATTRIBUTES", "DATASIZE", "BINARYDATA", "PARTNO"].map fun w => w.toList.map Char.toNat).take n, ?_, ?_, ?_⟩
  · unfold Name Scalar
    rcases h with rfl | rfl <;> decide
  · rcases h with rfl | rfl
    · left; simp only [List.take, List.map, SameNames, fileFields, and_true]; decide
    · right; simp only [List.take, List.map, SameNames, fileFields, List.cons_append, List.nil_append, and_true]; decide
  · rcases h with rfl | rfl <;> decide

/-- The hypotheses of `good_infobase_passes_partial` are met. -/
example : testDb z 5 1 db = .ok (some true) := by
  refine good_infobase_passes_partial z 5 0 _ _ _ _ _ (fields_ok 7 (Or.inr rfl)) (fields_ok 6 (Or.inl rfl)) (fields_ok 7 (Or.inr rfl))
    (fields_ok 7 (Or.inr rfl)) ?_ ?_ ?_ ?_ ?_ (by decide)
  · refine ⟨["SERIALIZEDDATA".toList.map Char.toNat], by unfold Name Scalar; decide, ?_, by decide⟩
    simp only [SchemaFields, SameNames, and_true]; decide
  · intro r hr
    simp only [List.mem_cons, List.not_mem_nil, or_false] at hr
    rcases hr with rfl | rfl
    · exact Or.inr ⟨value, rfl, by decide, text_sound _⟩
    · exact Or.inl rfl
  · intro r hr; cases hr
  · intro r hr
    simp only [List.mem_cons, List.not_mem_nil, or_false] at hr
    subst hr
    exact Or.inr ⟨_, rfl, by decide, Or.inl (by decide)⟩
  · intro r hr
    simp only [List.mem_cons, List.not_mem_nil, or_false] at hr
    rcases hr with rfl | rfl
    · exact Or.inl rfl
    · exact Or.inr ⟨value, rfl, text_sound _⟩

/-- A wrong size is reported. -/
example : testDb z 5 1 { db with config := some ⟨Cli.asc "CONFIG", fields, [{ root with size := Cli.asc "11" }]⟩ } = .throw := by decide +kernel

/-- The values of the infobase are no containers. -/
example : PlainRecs z ⟨Cli.asc "CONFIG", fields, [root, gone]⟩ := by
  intro q hq
  simp only [List.mem_cons, List.not_mem_nil, or_false] at hq
  rcases hq with rfl | rfl
  · refine ⟨by simp [root], ?_⟩
    intro b hb x hx
    cases hb
    cases hx with
    | raw _ => decide
    | once h => cases h
  · refine ⟨by simp [gone], ?_⟩
    intro b hb
    cases hb

/-- A container with one text in it, made and written: the test never passes it. -/
def made : List Container.Spec.UserOp := [.put [0x41] value 5]

example : ∃ k, session plainCodec LAST blankCatalog (made ++ [.flush]) = .ok (some k) ∧ ∀ d r,
    testStream z LAST d false (Cli.asc "CONFIG/root") k.cat.data.data ≠ .ok (some r) := by
  have hl : Allowed (codec z false) LAST blankCatalog (made ++ [.flush]) := by decide +kernel
  obtain ⟨k, s, ls, e, hi, _⟩ := flushed_session LAST (Nat.le_refl _) made hl
  refine ⟨k, e, fun d r => ?_⟩
  have hlen := phys_length hi.phys
  exact container_never_passes z LAST d (Nat.le_refl _) false false _ _ made k hl e (by decide) (by intro h; rw [h] at hlen; simp at hlen) rfl
    [0x41] value (by decide) (by decide) (by decide) (by decide) r

/-- Bytes that look like a container, and whose directory cannot be read. -/
def broken : Bytes := template ++ [13, 10] ++ List.replicate 8 0x66 ++ [0x20] ++ List.replicate 8 0x66 ++ [0x20] ++ List.replicate 8 0x66 ++ [0x20, 13, 10]

example : isCatalog broken = .ok true ∧ initCatalog LAST broken = .ok (some (.broken [])) := by decide +kernel

/-- A text in Cyrillic that is a bracket text, and is reported. -/
example : Parses (Cli.asc "{\"" ++ utf8Text ("Справочник".toList.map Char.toNat) ++ Cli.asc "\"}") ∧
    testString (Cli.asc "{\"" ++ utf8Text ("Справочник".toList.map Char.toNat) ++ Cli.asc "\"}") = .throw := by
  constructor
  · intro _
    have : (match Tree.parseText (shown (Cli.asc "{\"" ++ utf8Text ("Справочник".toList.map Char.toNat) ++ Cli.asc "\"}")) with
      | .ok _ => true | _ => false) = true := by decide +kernel
    revert this
    cases Tree.parseText (shown (Cli.asc "{\"" ++ utf8Text ("Справочник".toList.map Char.toNat) ++ Cli.asc "\"}")) with
    | ok n => intro _; exact ⟨n, rfl⟩
    | throw => intro h; cases h
    | ub => intro h; cases h
  · have h : Cli.asc "{\"" ++ utf8Text ("Справочник".toList.map Char.toNat) ++ Cli.asc "\"}" = [0x7B, 0x22] ++
        utf8Text ("Справоч".toList.map Char.toNat) ++ (utf8Text ("ник".toList.map Char.toNat) ++ Cli.asc "\"}") := by decide
    rw [h]
    exact cyrillic_reported ("Справоч".toList.map Char.toNat) (utf8Text ("ник".toList.map Char.toNat) ++ Cli.asc "\"}") (by decide) (by decide)

end Verif.Format.Example
