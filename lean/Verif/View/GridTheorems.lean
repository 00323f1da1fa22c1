import Verif.View.GridSpec
import Verif.Field.Number
import Verif.Record.Theorems
import Verif.Index.WalkTheorems
import Verif.Container.OpenTheorems

/-! # Property theorems: the grid of the records of a table (C113) -/

namespace Verif.View
open Verif Record

/-! ## Rows -/

/-- **C113.** The grid has a row for each record. -/
theorem grid_rows (g : Grid) (nums : List Nat) (h : Spec.Rows g nums) (hn : nums.length < 2 ^ 31) :
    ∃ fuel, ∀ k, fuel ≤ k → gridRows g k = .ok (some nums.length) := by
  cases h with
  | plain hi hw =>
    refine ⟨0, fun k _ => ?_⟩
    unfold gridRows
    rw [hi]
    dsimp only
    rw [(physNum_iff _ hw.1 _).mpr hw, Outcome.ok_bind]
    rw [List.length_range] at hn ⊢
    unfold asInt
    rw [if_pos hn]
  | sorted hi hw hr hh hp hc hc0 hl hls hnd hlt =>
    obtain ⟨fuel, hf⟩ := Index.walk_lists_records _ _ _ _ _ _ _ hh hp hc hc0 hl hls hnd (by rw [hr]; exact hlt)
    refine ⟨fuel, fun k hk => ?_⟩
    unfold gridRows
    rw [hi]
    dsimp only
    rw [(hf k hk).2.1, Outcome.ok_bind]
    simp only [Option.map_some]
    unfold asInt
    rw [if_pos hn]

theorem grid_record {g : Grid} {nums : List Nat} (h : Spec.Rows g nums) {i x : Nat} (hx : nums[i]? = some x) :
    ∃ n, Record.Spec.Whole g.tab n ∧ x < n ∧ ∃ fuel, ∀ k, fuel ≤ k → gridRecord g k i = .ok (some (Record.Spec.record g.tab x)) := by
  cases h with
  | plain hi hw =>
    obtain ⟨hlt, he⟩ := List.getElem?_eq_some_iff.mp hx
    rw [List.length_range] at hlt
    rw [List.getElem_range] at he
    subst he
    refine ⟨_, hw, hlt, 0, fun k _ => ?_⟩
    unfold gridRecord
    rw [hi]
    dsimp only
    rw [getRecord_ok hw hlt, Outcome.ok_bind]
  | sorted hi hw hr hh hp hc hc0 hl hls hnd hlt =>
    obtain ⟨fuel, hf⟩ := Index.walk_lists_records _ _ _ _ _ _ _ hh hp hc hc0 hl hls hnd (by rw [hr]; exact hlt)
    have hxn := hlt x (List.mem_of_getElem? hx)
    refine ⟨_, hw, hxn, fuel, fun k hk => ?_⟩
    unfold gridRecord
    rw [hi]
    dsimp only
    rw [(hf k hk).2.2 i x hx, Outcome.ok_bind]
    dsimp only
    rw [getRecord_ok hw hxn, Outcome.ok_bind]

theorem answers_of {x : Rest} {sh : Field.Show} {g : Grid} {nums : List Nat} (h : Spec.Rows g nums) {i m : Nat} (hm : nums[i]? = some m)
    {col : Nat} {role : CellRole} {a : Cell} {f0 : Nat}
    (hc : ∀ k, f0 ≤ k → cellOf { x with fuel := k } sh g (Record.Spec.record g.tab m) col role = .ok (some a)) :
    Spec.Answers x sh g i col role a := by
  obtain ⟨n, _, _, fuel, hf⟩ := grid_record h hm
  refine ⟨max fuel f0, fun k hk => ?_⟩
  unfold gridData
  rw [if_neg (by omega), show ((i : Int).toNat) = i from rfl, show ((col : Int).toNat) = col from rfl]
  rw [hf k (by omega), Outcome.ok_bind]
  exact hc k (by omega)

/-! ## Cells -/

theorem null_isNull {f : Field.Fld} {r : Bytes} (h : Spec.Null f r) : isNull r f.slot = .ok true := by
  obtain ⟨hn, pre, post, rfl, hp⟩ := h
  unfold isNull
  have e : pre ++ 0 :: post = pre ++ [0] ++ post := by simp
  simp only [Field.Fld.slot, hn, if_true]
  rw [e, Field.load_at pre [0] post f.offset 1 hp rfl]
  simp

theorem holds_isNull {f : Field.Fld} {v r : Bytes} (h : Spec.Holds f v r) : isNull r f.slot = .ok false := by
  obtain ⟨pre, post, b, hb, hp, rfl⟩ := h
  unfold isNull
  cases hn : f.nullable with
  | false => simp [Field.Fld.slot, hn]
  | true =>
    have e : pre ++ (if true = true then [b] else []) ++ v ++ post = pre ++ [b] ++ (v ++ post) := by simp
    simp only [Field.Fld.slot, hn, if_true] at *
    rw [show pre ++ [b] ++ v ++ post = pre ++ [b] ++ (v ++ post) by simp, Field.load_at pre [b] (v ++ post) f.offset 1 hp rfl]
    simp [hb]

theorem field_at {g : Grid} {c : Column} {j : Nat} (h : g.cols[j]? = some c) : gridField g j = .ok c := by
  unfold gridField; rw [h]

/-- **C113.** A null value is shown as `{NULL}` and edited or copied as the empty text. -/
theorem null_cell (x : Rest) (sh : Field.Show) (g : Grid) (nums : List Nat) (h : Spec.Rows g nums) (i m j : Nat) (c : Column)
    (hm : nums[i]? = some m) (hc : g.cols[j]? = some c) (hn : Spec.Null c.fld (Record.Spec.record g.tab m)) :
    Spec.Answers x sh g i j .display (.text "{NULL}".toList) ∧ Spec.Answers x sh g i j .edit (.text []) := by
  constructor
  · refine answers_of (f0 := 0) h hm fun k _ => ?_
    unfold cellOf
    dsimp only
    rw [field_at hc, Outcome.ok_bind]
    unfold displayCell
    rw [null_isNull hn, Outcome.ok_bind]
    rfl
  · refine answers_of (f0 := 0) h hm fun k _ => ?_
    unfold cellOf
    dsimp only
    rw [field_at hc, Outcome.ok_bind]
    unfold editCell
    rw [null_isNull hn, Outcome.ok_bind]
    rfl

/-- The text of the specification is the one a record gives (C68). -/
theorem text_given {sh : Field.Show} {f : Field.Fld} {r : Bytes} {s : Str} (h : Spec.Text sh f r s) :
    (∃ v, Spec.Holds f v r) ∧ Field.getString sh f r = .ok s := by
  cases h with
  | no ht hv => exact ⟨⟨_, hv⟩, by rw [Field.value_string sh f _ r hv, Field.bool_text sh f 0 r ht hv]; rfl⟩
  | yes ht hb hv => exact ⟨⟨_, hv⟩, by rw [Field.value_string sh f _ r hv, Field.bool_text sh f _ r ht hv, if_neg hb]⟩
  | char ht hs hl hv => exact ⟨⟨_, hv⟩, by rw [Field.value_string sh f _ r hv, Field.char_text sh f _ r ht hs hl hv]⟩
  | varchar ht hs hm hl hv =>
    exact ⟨⟨_, hv⟩, by rw [Field.value_string sh f _ r hv, Field.varchar_text sh f _ _ r ht hs ⟨_, rfl, hl⟩ hm hv]⟩
  | reference ht hg hl hv => exact ⟨⟨_, hv⟩, by rw [Field.value_string sh f _ r hv, Field.reference_text sh f _ r ht hg hl hv]⟩
  | identifier ht hg h16 hl hs hv =>
    exact ⟨⟨_, hv⟩, by rw [Field.value_string sh f _ r hv, Field.identifier_text sh f _ r ht hg h16 hl hv _ _ _ (.inl hs)]⟩
  | version ht ha hb hc hd hv =>
    exact ⟨⟨_, hv⟩, by rw [Field.value_string sh f _ r hv, Field.version_text sh f _ _ _ _ r ht ha hb hc hd hv]⟩
  | version8 ht ha hb hv =>
    exact ⟨⟨_, hv⟩, by rw [Field.value_string sh f _ r hv, Field.version8_text sh f _ _ r ht ha hb hv]⟩
  | number ht hl hp hne hn hv =>
    exact ⟨⟨_, hv⟩, by rw [Field.value_string sh f _ r hv, Field.stored_number_text sh f _ _ _ _ r ht hl hp hne hn hv]⟩
  | memo ht hv => exact ⟨⟨_, hv⟩, by rw [Field.value_string sh f _ r hv, (Field.large_text sh f r _ false false hv).1 ht]⟩
  | text ht hv => exact ⟨⟨_, hv⟩, by rw [Field.value_string sh f _ r hv, (Field.large_text sh f r _ false false hv).2.1 ht]⟩
  | image ht hv => exact ⟨⟨_, hv⟩, by rw [Field.value_string sh f _ r hv, (Field.large_text sh f r _ false false hv).2.2 ht]⟩

/-- **C113.** The cell in row `i` and column `j` shows the value of field `j` in the record the row stands for. Left out: dates
and binary values that are no identifiers (what C68 has of them holds of the cell as well). -/
theorem cell_shows_value_partial (x : Rest) (sh : Field.Show) (g : Grid) (nums : List Nat) (h : Spec.Rows g nums) (i m j : Nat)
    (c : Column) (s : Str) (hm : nums[i]? = some m) (hc : g.cols[j]? = some c)
    (ht : Spec.Text sh c.fld (Record.Spec.record g.tab m) s) : Spec.Answers x sh g i j .display (.text s) := by
  obtain ⟨⟨v, hv⟩, hs⟩ := text_given ht
  refine answers_of (f0 := 0) h hm fun k _ => ?_
  unfold cellOf
  dsimp only
  rw [field_at hc, Outcome.ok_bind]
  unfold displayCell
  rw [holds_isNull hv, Outcome.ok_bind, if_neg (by simp), hs, Outcome.ok_bind]

/-- For a declared column a value that is not large is edited or copied as it is shown, whatever that gives. -/
theorem edit_display {x : Rest} {sh : Field.Show} {c : Column} {v r : Bytes} (hd : Spec.Declared c) (hl : isLarge c.fld.ty.type = false)
    (hv : Spec.Holds c.fld v r) : editCell x sh c r = displayCell sh c r := by
  obtain ⟨d, hd0, hd⟩ := hd
  unfold editCell displayCell
  rw [holds_isNull hv, Outcome.ok_bind, Outcome.ok_bind]
  simp only [Bool.false_eq_true, if_false, hl]
  unfold Field.manager at hd
  cases hg : Field.canBeGuid c.name with
  | throw => rw [hg] at hd; cases hd
  | ub => rw [hg] at hd; cases hd
  | ok b =>
    rw [hg, Outcome.ok_bind] at hd
    have hd := Outcome.ok.inj hd
    have htype : c.fld.ty.type = d.type := by rw [← hd]
    have hlen : c.fld.ty.length = d.length.toNat := by rw [← hd]
    have hgu : c.fld.ty.isGuid = (decide (d.type = .binary) && b && decide (d.length = 16)) := by rw [← hd]
    unfold isRef
    by_cases hb : c.fld.ty.type = .binary ∧ c.fld.ty.length = 16
    · rw [if_pos hb]
      unfold Field.canBeGuid at hg
      cases he : Unicode.endsWithIC c.name [82, 69, 70] with
      | throw => rw [he] at hg; cases hg
      | ub => rw [he] at hg; cases hg
      | ok e =>
        rw [he, Outcome.ok_bind] at hg
        rw [Outcome.ok_bind]
        cases e with
        | false => rfl
        | true =>
          rw [if_pos rfl] at hg
          have hb1 : b = true := (Outcome.ok.inj hg).symm
          have h16 : d.length = 16 := by rw [hlen] at hb; omega
          have hgu' : c.fld.ty.isGuid = true := by rw [hgu, hb1, ← htype, hb.1, h16]; rfl
          have e : smallText sh c r true = Field.getString sh c.fld r := by
            unfold smallText
            rw [if_pos rfl, Field.value_string sh c.fld v r hv]
            unfold Field.text Slot.dataOff Field.Fld.slot
            obtain ⟨pre, post, fl, hfl, hp, rfl⟩ := hv
            cases hn : c.fld.nullable with
            | false => simp [Field.typeText, Field.binaryText, hb.1, hgu']
            | true =>
              have hby : Field.byteAt (pre ++ [fl] ++ v ++ post) c.fld.offset = .ok fl := by
                unfold Field.byteAt
                simp [← hp]
              simp [Field.typeText, Field.binaryText, hb.1, hgu', hby, hfl] at hby ⊢
              rw [hby]
              simp [hfl]
          rw [e]
    · rw [if_neg hb, Outcome.ok_bind]
      rfl

/-- **C113.** What is edited or copied is what is shown, for every value that is not large. -/
theorem edited_as_shown (x : Rest) (sh : Field.Show) (g : Grid) (nums : List Nat) (h : Spec.Rows g nums) (i m j : Nat) (c : Column)
    (v : Bytes) (a : Cell) (hm : nums[i]? = some m) (hc : g.cols[j]? = some c) (hd : Spec.Declared c)
    (hl : c.fld.ty.type ≠ .string ∧ c.fld.ty.type ≠ .text ∧ c.fld.ty.type ≠ .image)
    (hv : Spec.Holds c.fld v (Record.Spec.record g.tab m)) (ha : Spec.Answers x sh g i j .display a) : Spec.Answers x sh g i j .edit a := by
  obtain ⟨n, _, _, fuel, hf⟩ := grid_record h hm
  obtain ⟨f1, ha⟩ := ha
  refine answers_of (f0 := max fuel f1) h hm fun k hk => ?_
  have h1 := ha k (by omega)
  unfold gridData at h1
  rw [if_neg (by omega), show ((i : Int).toNat) = i from rfl, show ((j : Int).toNat) = j from rfl, hf k (by omega), Outcome.ok_bind] at h1
  unfold cellOf at h1 ⊢
  dsimp only at h1 ⊢
  rw [field_at hc, Outcome.ok_bind] at h1 ⊢
  rw [edit_display hd (by unfold isLarge; simp [hl]) hv]
  exact h1

/-- **C113.** A removed record, and only such a one, is drawn in italics. -/
theorem removed_in_italics (x : Rest) (sh : Field.Show) (g : Grid) (nums : List Nat) (h : Spec.Rows g nums) (i m j : Nat)
    (hm : nums[i]? = some m) :
    (Record.Spec.Live g.tab m → Spec.Answers x sh g i j .font .nothing) ∧
    (¬ Record.Spec.Live g.tab m → Spec.Answers x sh g i j .font .italic) := by
  obtain ⟨n, hw, hlt, _⟩ := grid_record h hm
  constructor
  · intro hlv
    refine answers_of (f0 := 0) h hm fun k _ => ?_
    unfold cellOf
    dsimp only
    rw [isRemoved_ok hw hlt, Outcome.ok_bind, decide_eq_true hlv]
    rfl
  · intro hlv
    refine answers_of (f0 := 0) h hm fun k _ => ?_
    unfold cellOf
    dsimp only
    rw [isRemoved_ok hw hlt, Outcome.ok_bind, decide_eq_false hlv]
    rfl

/-- **C113.** Numbers, and nothing else, are aligned to the right. -/
theorem numbers_to_the_right (x : Rest) (sh : Field.Show) (g : Grid) (nums : List Nat) (h : Spec.Rows g nums) (i m j : Nat) (c : Column)
    (hm : nums[i]? = some m) (hc : g.cols[j]? = some c) :
    Spec.Answers x sh g i j .align (if c.fld.ty.type = .numeric then .right else .nothing) := by
  refine answers_of (f0 := 0) h hm fun k _ => ?_
  unfold cellOf
  dsimp only
  rw [field_at hc, Outcome.ok_bind]

/-- **C113.** The columns are the fields of the table in their order, under their names; there are no others. -/
theorem columns (g : Grid) (j : Nat) :
    gridCols g = g.cols.length ∧ (∀ c, g.cols[j]? = some c → gridHeader g j = .ok c.name) ∧ (g.cols.length ≤ j → gridHeader g j = .throw) := by
  refine ⟨rfl, ?_, ?_⟩
  · intro c hc
    unfold gridHeader
    rw [field_at hc, Outcome.ok_bind]
  · intro hj
    unfold gridHeader gridField
    rw [List.getElem?_eq_none hj]
    rfl

/-- **C113.** Outside the grid there is nothing. -/
theorem nothing_outside (x : Rest) (sh : Field.Show) (g : Grid) (row col : Int) (role : CellRole) (h : row < 0 ∨ col < 0) :
    gridData x sh g row col role = .ok (some .nothing) := by
  unfold gridData
  rw [if_pos h]

/-! ## Large values -/

theorem place_at {f : Field.Fld} {r : Bytes} {s l : Nat} (hs : s < 2 ^ 32) (hl : l < 2 ^ 32)
    (h : Spec.Holds f (Index.le 4 s ++ Index.le 4 l) r) : blobPlace r f.slot = .ok (s, l) := by
  have l4 : ∀ n, (Index.le 4 n).length = 4 := fun n => by simp [Index.le]
  obtain ⟨pre, post, b, hb, hp, rfl⟩ := h
  have h1 : load (pre ++ (if f.nullable then [b] else []) ++ (Index.le 4 s ++ Index.le 4 l) ++ post) f.slot.dataOff 4 = .ok (Index.le 4 s) := by
    rw [show pre ++ (if f.nullable then [b] else []) ++ (Index.le 4 s ++ Index.le 4 l) ++ post =
      (pre ++ (if f.nullable then [b] else [])) ++ Index.le 4 s ++ (Index.le 4 l ++ post) by simp]
    refine Field.load_at _ _ _ _ _ ?_ (l4 s)
    unfold Slot.dataOff Field.Fld.slot
    cases f.nullable <;> simp [hp]
  have h2 : load (pre ++ (if f.nullable then [b] else []) ++ (Index.le 4 s ++ Index.le 4 l) ++ post) (f.slot.dataOff + 4) 4 =
      .ok (Index.le 4 l) := by
    rw [show pre ++ (if f.nullable then [b] else []) ++ (Index.le 4 s ++ Index.le 4 l) ++ post =
      (pre ++ (if f.nullable then [b] else []) ++ Index.le 4 s) ++ Index.le 4 l ++ post by simp]
    refine Field.load_at _ _ _ _ _ ?_ (l4 l)
    unfold Slot.dataOff Field.Fld.slot
    cases f.nullable <;> simp [hp, l4]
  unfold blobPlace
  rw [h1, Outcome.ok_bind, h2, Outcome.ok_bind]
  rw [Index.ofLe_le, Index.ofLe_le, Nat.mod_eq_of_lt (by simpa using hs), Nat.mod_eq_of_lt (by simpa using hl)]

theorem large_cell {x : Rest} {sh : Field.Show} {g : Grid} {nums : List Nat} (h : Spec.Rows g nums) {i m j : Nat}
    {c : Column} {s l : Nat} {a : Cell} (hm : nums[i]? = some m) (hc : g.cols[j]? = some c)
    (hl : c.fld.ty.type = .string ∨ c.fld.ty.type = .text ∨ c.fld.ty.type = .image) (hs : s < 2 ^ 32) (hl' : l < 2 ^ 32)
    (hv : Spec.Holds c.fld (Index.le 4 s ++ Index.le 4 l) (Record.Spec.record g.tab m))
    (ha : ∃ fuel, ∀ k, fuel ≤ k → storedCell k (decide (c.fld.ty.type = .image))
      (Depot.storeData x.fetch x.inflate [] (fun _ => none) true (some (s, l)) none) = .ok (some a)) : Spec.Answers x sh g i j .edit a := by
  obtain ⟨f0, ha⟩ := ha
  refine answers_of (f0 := f0) h hm fun k hk => ?_
  unfold cellOf
  dsimp only
  rw [field_at hc, Outcome.ok_bind]
  unfold editCell
  rw [holds_isNull hv, Outcome.ok_bind, if_neg (by simp), if_pos (by unfold isLarge; rcases hl with e | e | e <;> rw [e] <;> rfl)]
  unfold largeCell
  rw [place_at hs hl' hv, Outcome.ok_bind]
  exact ha k hk

/-- **C113.** A large value that was never stored is reported, and so is one that cannot be read. -/
theorem large_refused (x : Rest) (sh : Field.Show) (g : Grid) (nums : List Nat) (h : Spec.Rows g nums) (i m j : Nat)
    (c : Column) (s l : Nat) (hm : nums[i]? = some m) (hc : g.cols[j]? = some c)
    (hl : c.fld.ty.type = .string ∨ c.fld.ty.type = .text ∨ c.fld.ty.type = .image) (hs : s < 2 ^ 32) (hl' : l < 2 ^ 32)
    (hv : Spec.Holds c.fld (Index.le 4 s ++ Index.le 4 l) (Record.Spec.record g.tab m)) :
    (s = 0 ∧ l = 0 → Spec.Answers x sh g i j .edit .noBlob) ∧
    (¬ (s = 0 ∧ l = 0) → x.fetch s l = .throw → Spec.Answers x sh g i j .edit .failedBlob) := by
  constructor
  · intro h0
    refine large_cell h hm hc hl hs hl' hv ⟨0, fun k _ => ?_⟩
    unfold Depot.storeData
    dsimp only
    rw [if_pos h0]
    rfl
  · intro h0 hf
    refine large_cell h hm hc hl hs hl' hv ⟨0, fun k _ => ?_⟩
    unfold Depot.storeData
    dsimp only
    rw [if_neg h0, hf]
    rfl

/-- **C113.** A large value that is no container is edited or copied as the text it holds: what it unpacks to, or itself if it is
not packed; for images the bytes as they are, else as UTF-16. Left out: values that do not unpack after some bytes of them were
unpacked. -/
theorem large_text_partial (x : Rest) (sh : Field.Show) (g : Grid) (nums : List Nat) (h : Spec.Rows g nums) (i m j : Nat)
    (c : Column) (s l : Nat) (raw d : Bytes) (hm : nums[i]? = some m) (hc : g.cols[j]? = some c) (hs : s < 2 ^ 32) (hl' : l < 2 ^ 32)
    (hv : Spec.Holds c.fld (Index.le 4 s ++ Index.le 4 l) (Record.Spec.record g.tab m)) (h0 : s ≠ 0)
    (hf : x.fetch s l = .ok raw) (hi : x.inflate raw = (d, true) ∨ x.inflate raw = ([], false) ∧ d = raw) (hne : d ≠ [])
    (hk : Container.isCatalog d = .ok false) :
    (c.fld.ty.type = .image → Spec.Answers x sh g i j .edit (.text (d.map fun b => Char.ofNat b.toNat))) ∧
    (∀ cps, c.fld.ty.type = .string ∨ c.fld.ty.type = .text → (∀ u ∈ cps, Unicode.Spec.Scalar u) → d = Unicode.Spec.utf16Text cps →
      Spec.Answers x sh g i j .edit (.text (Field.Spec.utf8Str cps))) := by
  have hst : Depot.storeData x.fetch x.inflate [] (fun _ => none) true (some (s, l)) none = .ok (some d) := by
    unfold Depot.storeData
    dsimp only
    rw [if_neg (by omega), hf, Outcome.ok_bind, if_pos rfl]
    rcases hi with hi | ⟨hi, rfl⟩ <;> rw [hi] <;> simp
  have hop : ∀ k, Container.openCatalog k d = .ok (some .other) := by
    intro k
    unfold Container.openCatalog
    dsimp only
    rw [if_neg (by intro e; exact hne (List.eq_nil_of_length_eq_zero e)), hk]
    rfl
  constructor
  · intro ht
    refine large_cell h hm hc (.inr (.inr ht)) hs hl' hv ⟨0, fun k _ => ?_⟩
    rw [hst]
    unfold storedCell contentText
    dsimp only
    rw [hop, Outcome.ok_bind]
    dsimp only
    rw [ht]
    rfl
  · intro cps ht hu hd
    refine large_cell h hm hc (ht.elim .inl (fun e => .inr (.inl e))) hs hl' hv ⟨0, fun k _ => ?_⟩
    rw [hst]
    unfold storedCell contentText
    dsimp only
    rw [hop, Outcome.ok_bind]
    dsimp only
    rw [if_neg (by rcases ht with e | e <;> rw [e] <;> decide), hd, Field.utf16Str_text cps hu, Outcome.ok_bind]

/-- **C113.** A large value that holds a container is named so; so is an empty one, which is none (`empty_value_is_a_container`). -/
theorem large_container (x : Rest) (sh : Field.Show) (g : Grid) (nums : List Nat) (h : Spec.Rows g nums) (i m j : Nat)
    (c : Column) (s l : Nat) (raw d : Bytes) (k : Container.Catalog) (hm : nums[i]? = some m) (hc : g.cols[j]? = some c)
    (hl : c.fld.ty.type = .string ∨ c.fld.ty.type = .text ∨ c.fld.ty.type = .image) (hs : s < 2 ^ 32) (hl' : l < 2 ^ 32)
    (hv : Spec.Holds c.fld (Index.le 4 s ++ Index.le 4 l) (Record.Spec.record g.tab m)) (h0 : s ≠ 0)
    (hf : x.fetch s l = .ok raw) (hi : x.inflate raw = (d, true) ∨ x.inflate raw = ([], false) ∧ d = raw)
    (hk : ∃ fuel, ∀ f, fuel ≤ f → Container.openCatalog f d = .ok (some (.container k))) :
    Spec.Answers x sh g i j .edit (.text "{catalog}".toList) := by
  have hst : Depot.storeData x.fetch x.inflate [] (fun _ => none) true (some (s, l)) none = .ok (some d) := by
    unfold Depot.storeData
    dsimp only
    rw [if_neg (by omega), hf, Outcome.ok_bind, if_pos rfl]
    rcases hi with hi | ⟨hi, rfl⟩ <;> rw [hi] <;> simp
  obtain ⟨fuel, hk⟩ := hk
  refine large_cell h hm hc hl hs hl' hv ⟨fuel, fun f hf' => ?_⟩
  rw [hst]
  unfold storedCell contentText
  dsimp only
  rw [hk f hf', Outcome.ok_bind]

/-- **C113, counterexample in general.** An empty large value, which is a text of no characters, is given as `{catalog}`: opening
a container on an empty stream makes one. -/
theorem empty_value_is_a_container (x : Rest) (sh : Field.Show) (g : Grid) (nums : List Nat) (h : Spec.Rows g nums) (i m j : Nat)
    (c : Column) (s l : Nat) (raw : Bytes) (hm : nums[i]? = some m) (hc : g.cols[j]? = some c)
    (hl : c.fld.ty.type = .string ∨ c.fld.ty.type = .text ∨ c.fld.ty.type = .image) (hs : s < 2 ^ 32) (hl' : l < 2 ^ 32)
    (hv : Spec.Holds c.fld (Index.le 4 s ++ Index.le 4 l) (Record.Spec.record g.tab m)) (h0 : s ≠ 0)
    (hf : x.fetch s l = .ok raw) (hi : x.inflate raw = ([], true)) : Spec.Answers x sh g i j .edit (.text "{catalog}".toList) :=
  large_container x sh g nums h i m j c s l raw [] Container.blankCatalog hm hc hl hs hl' hv h0 hf (.inl hi)
    ⟨0, fun f _ => Container.open_empty f⟩

end Verif.View
