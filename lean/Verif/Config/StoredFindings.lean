import Verif.Config.StoredTheorems

/-! # C106: a table of files as an example, and tables that are not read -/

namespace Verif.Config
open Verif Record

/-- The columns of the example: 38 bytes a record with the mark. -/
def exCols : List Col :=
  [⟨Cli.asc "FILENAME", 1, false, .varchar, 3, 0, false⟩, ⟨Cli.asc "CREATION", 9, false, .datetime, 0, 0, false⟩,
   ⟨Cli.asc "Modified", 16, false, .datetime, 0, 0, false⟩, ⟨Cli.asc "ATTRIBUTES", 23, false, .numeric, 3, 0, false⟩,
   ⟨Cli.asc "DATASIZE", 25, false, .numeric, 3, 0, false⟩, ⟨Cli.asc "BINARYDATA", 27, true, .image, 0, 0, false⟩,
   ⟨Cli.asc "PartNo", 36, false, .numeric, 3, 0, false⟩]

def exRecord (n0 n1 : UInt8) (cnt : UInt8) (day : UInt8) (start len : UInt8) (part : UInt8) : Bytes :=
  [0, cnt, 0, n0, 0, n1, 0, 0, 0, 0x20, 0x20, 1, day, 0x12, 0x30, 0x59, 0x20, 0x20, 2, day, 0x12, 0x30, 0x59, 0x10, 0, 0x10, 0,
   1, start, 0, 0, 0, len, 0, 0, 0, 0x10, part]

/-- Part 1 of `ab`, a removed record, part 0 of `AB`, part 0 of `c`, and a file without data. -/
def exTable : Record.Tab :=
  ⟨exRecord 0x61 0x62 2 0x11 2 2 1 ++ (1 :: List.replicate 37 9) ++ exRecord 0x41 0x42 2 0x12 1 4 0 ++ exRecord 0x63 0 1 0x13 3 1 0 ++
    exRecord 0x64 0 1 0x14 0 0 0, 38⟩

def exLib : Lib := ⟨⟨false, false⟩, fun s => s.map Char.toLower, fun ds => (ds.foldl (fun a d => a * 10 + d) 0).toNat⟩

def exRows : List Row :=
  [⟨false, 2, 2, ['a', 'b'], 1, 20200111123059, 20200211123059⟩, ⟨true, 0, 0, [], 0, 0, 0⟩,
   ⟨false, 1, 4, ['A', 'B'], 0, 20200112123059, 20200212123059⟩, ⟨false, 3, 1, ['c'], 0, 20200113123059, 20200213123059⟩,
   ⟨false, 0, 0, ['d'], 0, 20200114123059, 20200214123059⟩]

def exFiles : List Spec.SFile :=
  [⟨['c'], [((3, 1), [9])]⟩, ⟨['a', 'B'], [((1, 4), [1, 2, 3, 4]), ((2, 2), [5, 6])]⟩]

theorem ex_named : Spec.Named exCols := by
  refine ⟨["FILENAME", "CREATION", "Modified", "ATTRIBUTES", "DATASIZE", "BINARYDATA", "PartNo"].map (fun s => s.toList.map Char.toNat), ?_, ?_, by decide +kernel⟩
  · decide +kernel
  · right
    simp only [List.map, Format.Spec.SameNames, Format.Spec.fileFields, List.cons_append, List.nil_append, and_true]
    decide +kernel

theorem ex_columns : Spec.Columns exCols := by
  constructor
  · intro c hc
    cases hc
    decide
  · intro c hc
    cases hc
    decide

theorem ex_held (n0 n1 cnt day start len part : UInt8) (cps : List Nat) (fill : Bytes) (name : Str) (cre mod : Nat) (p : Nat)
    (h1 : ∀ x ∈ cps, Unicode.Spec.Scalar x) (h2 : Unicode.Spec.utf16Text cps ++ fill = [n0, 0, n1, 0, 0, 0])
    (h3 : Unicode.Spec.le16 ((Unicode.Spec.utf16Text cps).length / 2) = [cnt, 0]) (hname : name = Field.Spec.utf8Str cps)
    (hc : cre = exLib.clock (Spec.nibbles [0x20, 0x20, 1, day, 0x12, 0x30, 0x59]))
    (hm : mod = exLib.clock (Spec.nibbles [0x20, 0x20, 2, day, 0x12, 0x30, 0x59])) (hp : p < 10) (hpart : part = UInt8.ofNat p) :
    Spec.Held exLib.clock exCols (exRecord n0 n1 cnt day start len part)
      ⟨false, Field.Spec.value [start, 0, 0, 0], Field.Spec.value [len, 0, 0, 0], name, p, cre, mod⟩ := by
  refine .here (exRecord n0 n1 cnt day start len part).tail cps rfl rfl ?_ hname ?_ ?_ ?_ ?_ (fun h => by cases h)
  · intro c hc
    cases hc
    refine ⟨h1, fill, by rw [h2]; rfl, ?_⟩
    rw [List.append_assoc, h2, h3]
    exact ⟨[0], (exRecord n0 n1 cnt day start len part).drop 9, 1, by decide, rfl, rfl⟩
  · intro c hcc
    cases hcc
    exact ⟨(exRecord n0 n1 cnt day start len part).take 9, [0x20, 0x20, 1, day, 0x12, 0x30, 0x59], (exRecord n0 n1 cnt day start len part).drop 16,
      rfl, rfl, rfl, by simp [exRecord], hc⟩
  · intro c hcc
    cases hcc
    exact ⟨(exRecord n0 n1 cnt day start len part).take 16, [0x20, 0x20, 2, day, 0x12, 0x30, 0x59], (exRecord n0 n1 cnt day start len part).drop 23,
      rfl, rfl, rfl, by simp [exRecord], hm⟩
  · intro c hcc
    cases hcc
    exact .inl ⟨[start, 0, 0, 0], [len, 0, 0, 0], rfl, rfl, rfl, rfl, (exRecord n0 n1 cnt day start len part).take 27,
      [0x10, part], 1, by decide, rfl, rfl⟩
  · intro c hcc
    cases hcc
    refine ⟨p, rfl, by omega, [0, 0, p], [0x10, part], by simp, rfl, ?_, ?_, ?_,
      (exRecord n0 n1 cnt day start len part).take 36, [], 1, by decide, rfl, rfl⟩
    · intro d hd
      simp only [List.mem_cons, List.not_mem_nil, or_false] at hd
      omega
    · simp [val]
    · subst hpart
      have : ∀ i : Fin 10, Decimal.writeTo ⟨true, 0, [0, 0, i.val].map Int.ofNat, 1⟩ = .ok [0x10, UInt8.ofNat i.val] := by decide +kernel
      exact this ⟨p, hp⟩

theorem ex_rows : ∀ j row, exRows[j]? = some row → Spec.Held exLib.clock exCols (Record.Spec.record exTable j) row := by
  intro j row h
  match j, h with
  | 0, h =>
    cases h
    exact ex_held 0x61 0x62 2 0x11 2 2 1 [0x61, 0x62] [0, 0] _ _ _ 1 (by decide) (by decide) (by decide) (by decide) (by decide +kernel) (by decide +kernel) (by decide) (by decide)
  | 1, h =>
    cases h
    exact .removed 1 (List.replicate 37 9) (by decide +kernel) (by decide) rfl
  | 2, h =>
    cases h
    exact ex_held 0x41 0x42 2 0x12 1 4 0 [0x41, 0x42] [0, 0] _ _ _ 0 (by decide) (by decide) (by decide) (by decide) (by decide +kernel) (by decide +kernel) (by decide) (by decide)
  | 3, h =>
    cases h
    exact ex_held 0x63 0 1 0x13 3 1 0 [0x63] [0, 0, 0, 0] _ _ _ 0 (by decide) (by decide) (by decide) (by decide) (by decide +kernel) (by decide +kernel) (by decide) (by decide)
  | 4, h =>
    cases h
    exact ex_held 0x64 0 1 0x14 0 0 0 [0x64] [0, 0, 0, 0] _ _ _ 0 (by decide) (by decide) (by decide) (by decide) (by decide +kernel) (by decide +kernel) (by decide) (by decide)
  | j + 5, h => cases h

/-- The hypotheses of the theorem are met by the example. -/
example : Spec.Named exCols ∧ Spec.Columns exCols ∧ Record.Spec.Whole exTable exRows.length ∧
    (∀ j row, exRows[j]? = some row → Spec.Held exLib.clock exCols (Record.Spec.record exTable j) row) ∧
    Spec.Says exLib.lower exRows exFiles ∧ (exFiles.map (fun f => exLib.lower f.name)).Nodup ∧ ∀ f ∈ exFiles, f.parts ≠ [] := by
  refine ⟨ex_named, ex_columns, by unfold Record.Spec.Whole; decide +kernel, ex_rows, ?_, by decide +kernel, by decide⟩
  unfold Spec.Says
  decide +kernel

/-- The file of two parts: the places of both, the name and the times of the first. -/
example : (match openStore exLib (some (exCols, exTable)) with
    | .ok (true, store) => decide (getFile exLib.lower store ['A', 'b'] = some ⟨['A', 'B'], [(1, 4), (2, 2)], 20200112123059, 20200212123059⟩)
    | _ => false) = true := by decide +kernel

/-- There is no such table: nothing is opened, and nothing is said about it. -/
theorem no_table_not_ready (e : Lib) : openStore e none = .ok (false, []) := rfl

theorem rowsFrom_throw (e : Lib) (cols : List Col) (hl : cols.length = 6 ∨ cols.length = 7) (hc : Spec.Columns cols) (t : Record.Tab) (n : Nat)
    (hw : Record.Spec.Whole t n) (rows : List Row) : ∀ (i k : Nat), i + rows.length + k + 1 = n →
    (∀ j row, rows[j]? = some row → Spec.Held e.clock cols (Record.Spec.record t (i + j)) row) →
    rowOf e cols (Record.Spec.record t (i + rows.length)) = .throw → rowsFrom e cols t (rows.length + k + 1) i = .throw := by
  induction rows with
  | nil =>
    intro i k hi _ ht
    rw [List.length_nil] at hi ht
    rw [List.length_nil, Nat.zero_add]
    unfold rowsFrom
    rw [getRecord_ok hw (by omega), Outcome.ok_bind, show rowOf e cols (Record.Spec.record t i) = .throw from ht]
    rfl
  | cons row rows ih =>
    intro i k hi h ht
    rw [List.length_cons] at hi ht
    rw [List.length_cons, show rows.length + 1 + k + 1 = (rows.length + k + 1) + 1 by omega]
    unfold rowsFrom
    rw [getRecord_ok hw (by omega), Outcome.ok_bind, rowOf_held e cols hl hc (Record.Spec.record t i) row (h 0 row rfl), Outcome.ok_bind,
      ih (i + 1) k (by omega) (fun j q hq => by have := h (j + 1) q hq; rw [show i + 1 + j = i + (j + 1) by omega]; exact this)
        (by rw [show i + 1 + rows.length = i + (rows.length + 1) by omega]; exact ht)]
    rfl

/-- **C106, a limitation.** One record that has data and no name makes the whole table unusable: whatever the records
before and after it, opening the table throws. -/
theorem null_name_spoils (e : Lib) (cols : List Col) (hn : Spec.Named cols) (hc : Spec.Columns cols) (t : Record.Tab) (rows : List Row) (k : Nat)
    (hw : Record.Spec.Whole t (rows.length + k + 1))
    (h : ∀ j row, rows[j]? = some row → Spec.Held e.clock cols (Record.Spec.record t j) row)
    (rest : Bytes) (hr : Record.Spec.record t rows.length = 0 :: rest)
    (c0 c5 : Col) (h0 : cols[0]? = some c0) (h5 : cols[5]? = some c5) (start length : Nat) (hs : start ≠ 0) (hl : length ≠ 0)
    (hp : Spec.HoldsPlace c5 (0 :: rest) start length) (hnull : c0.fld.nullable = true) (hz : (0 :: rest : Bytes)[c0.fld.offset]? = some 0) :
    openStore e (some (cols, t)) = .throw := by
  have hlen := named_length hn
  obtain ⟨ns, g1, g2, g3⟩ := hn
  unfold openStore
  dsimp only
  rw [(test_table_iff cols ns g1 g3).1 g2, Outcome.ok_bind, (physNum_iff t hw.1 _).mpr hw, Outcome.ok_bind]
  rw [rowsFrom_throw e cols hlen hc t _ hw rows 0 k (by omega) (fun j row hj => by rw [Nat.zero_add]; exact h j row hj) ?_]
  · rfl
  · rw [Nat.zero_add, hr]
    unfold rowOf
    rw [isRemoved_of _ (by simp)]
    have k0 : col cols 0 = .ok c0.fld := by unfold col; rw [h0]
    have k5 : col cols 5 = .ok c5.fld := by unfold col; rw [h5]
    have hb := place_read c5 _ _ _ hp
    have hg : Field.getString e.sh c0.fld (0 :: rest) = .throw := by
      unfold Field.getString isNull
      have hlt : c0.fld.offset < (0 :: rest : Bytes).length := by
        rcases Nat.lt_or_ge c0.fld.offset (0 :: rest : Bytes).length with h' | h'
        · exact h'
        · rw [List.getElem?_eq_none h'] at hz; cases hz
      simp only [Field.Fld.slot, hnull, if_true]
      rw [load_ok (by omega)]
      have : ((0 :: rest : Bytes).drop c0.fld.offset).take 1 = [0] := by
        rw [List.drop_eq_getElem_cons hlt]
        rw [List.getElem?_eq_getElem hlt] at hz
        simp_all
      rw [this]
      rfl
    simp only [List.head?_cons, Outcome.ok_bind, k5, hb]
    simp only [hs, hl, or_self, if_false]
    unfold takeRow
    rw [k0, Outcome.ok_bind, hg]
    simp

/-- A table whose first record has data, and null for its name. -/
example : openStore exLib (some (⟨Cli.asc "FILENAME", 8, true, .varchar, 3, 0, false⟩ :: exCols.tail, exTable)) = .throw := by decide +kernel

/-- **C106, a limitation.** A part number of 2³¹ or more makes the whole table unusable. -/
theorem great_part_throws :
    openStore exLib (some (exCols.take 6 ++ [⟨Cli.asc "PARTNO", 36, false, .numeric, 10, 0, false⟩],
      ⟨(exRecord 0x61 0x62 2 0x11 7 2 1).take 36 ++ [0x12, 0x14, 0x74, 0x83, 0x64, 0x80], 42⟩)) = .throw := by decide +kernel

/-- **C106, counterexample.** Only the names of the columns are tested, not their types: with a flag in place of the data the
place of the data is read from behind the end of the record. -/
theorem types_not_tested :
    testTable (exCols.take 5 ++ [⟨Cli.asc "BINARYDATA", 27, false, .bool, 0, 0, false⟩]) = .ok () ∧
    openStore exLib (some (exCols.take 5 ++ [⟨Cli.asc "BINARYDATA", 27, false, .bool, 0, 0, false⟩],
      ⟨(exRecord 0x61 0x62 2 0x11 7 2 1).take 28, 28⟩)) = .ub := by decide +kernel

end Verif.Config
