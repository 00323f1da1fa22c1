import Verif.Export.Lemmas

/-! # C81: exporting a table as XML -/

namespace Verif.Export
open Verif Verif.Export.Spec

/-! ## Helper lemmas -/

theorem recordName_ok (acc : Access R) (keys : List Column) (r : R) (h : ∀ c ∈ keys, ∃ t, acc.text r c = .ok t) : ∃ t, recordName acc keys r = .ok t := by
  have key : ∀ keys : List Column, (∀ c ∈ keys, ∃ t, acc.text r c = .ok t) → ∀ s : Str, ∃ t : Str,
      keys.foldlM (fun s c => do
        let t ← acc.text r c
        .ok ((if s.isEmpty then s else s ++ ['_']) ++ t)) s = Outcome.ok t := by
    intro keys
    induction keys with
    | nil => intro _ s; exact ⟨s, rfl⟩
    | cons c keys ih =>
      intro h s
      obtain ⟨t, ht⟩ := h c (by simp)
      obtain ⟨u, hu⟩ := ih (fun c hc => h c (by simp [hc])) ((if s.isEmpty then s else s ++ ['_']) ++ t)
      refine ⟨u, ?_⟩
      rw [List.foldlM_cons, ht]
      exact hu
  exact key keys h []

theorem nameRecord_ok (lower : Str → Str) (acc : Access R) (keys : List Column) (images : Int) (r : R) (b : Blobs)
    (h : images ≠ 0 → ∀ c ∈ keys, ∃ t, acc.text r c = .ok t) : ∃ b', nameRecord lower acc keys images r b = .ok b' ∧ b'.saved = b.saved ∧ b'.dir = b.dir := by
  unfold nameRecord
  by_cases hi : images ≠ 0
  · rw [if_pos hi]
    obtain ⟨t, ht⟩ := recordName_ok acc keys r (h hi)
    rw [ht]
    refine ⟨_, rfl, ?_⟩
    split <;> exact ⟨rfl, rfl⟩
  · rw [if_neg hi]
    exact ⟨b, rfl, rfl, rfl⟩

theorem cells_ok (acc : Access R) (mkdir : Bool) (images : Int) (r : R) (f : Column → Option Str) (b : Blobs) :
    ∀ cols : List Column, (∀ c ∈ cols, plainCell acc r c = .ok (f c)) →
      cells acc false mkdir images r cols b = .ok ((cols.map (fun c => (c.name, f c))).flatMap (fun c => cellText c.1 c.2), b) := by
  intro cols
  induction cols with
  | nil => intro _; rfl
  | cons c cols ih =>
    intro h
    have h1 : cell acc false mkdir images r c b = .ok (cellText c.name (f c), b) := by
      unfold cell
      rw [Bool.false_and, if_neg (by simp), h c (by simp)]
      rfl
    rw [cells, h1]
    show (cells acc false mkdir images r cols b >>= _) = _
    rw [ih (fun c hc => h c (by simp [hc]))]
    rfl

theorem records_read (lower : Str → Str) (acc : Access R) (keys cols : List Column) (mkdir : Bool) (images : Int) (f : R → Column → Option Str)
    (hn : ∀ c ∈ cols, GoodName c.name) : ∀ rs : List R, (∀ r ∈ rs, ∀ c ∈ cols, plainCell acc r c = .ok (f r c) ∧ Plain (f r c)) →
      (∀ r ∈ rs, images ≠ 0 → ∀ c ∈ keys, ∃ t, acc.text r c = .ok t) → ∀ b,
      ∃ t b', records lower acc keys cols false mkdir images rs b = .ok (t, b') ∧ b'.saved = b.saved ∧
        ∀ d s, readGo d .records none (t ++ s) = readGo { d with rows := d.rows ++ rs.map (fun r => cols.map (fun c => (c.name, f r c))) } .records none s := by
  intro rs
  induction rs with
  | nil => intro _ _ b; exact ⟨[], b, rfl, rfl, fun d s => by simp⟩
  | cons r rs ih =>
    intro h hk b
    obtain ⟨b1, e1, s1, _⟩ := nameRecord_ok lower acc keys images r b (hk r (by simp))
    obtain ⟨t, b2, e2, s2, hr⟩ := ih (fun x hx => h x (by simp [hx])) (fun x hx => hk x (by simp [hx])) b1
    have e3 := cells_ok acc mkdir images r (f r) b1 cols (fun c hc => (h r (by simp) c hc).1)
    refine ⟨"\t\t<Record>\r\n".toList ++ (cols.map (fun c => (c.name, f r c))).flatMap (fun c => cellText c.1 c.2) ++ "\t\t</Record>\r\n".toList ++ t, b2, ?_, by rw [s2, s1], ?_⟩
    · rw [records, e1]
      show (cells acc false mkdir images r cols b1 >>= _) = _
      rw [e3]
      show (records lower acc keys cols false mkdir images rs b1 >>= _) = _
      rw [e2]
      rfl
    · intro d s
      rw [List.append_assoc, read_record, hr]
      · simp
      · intro c hc
        obtain ⟨c0, h0, rfl⟩ := List.mem_map.1 hc
        exact ⟨hn c0 h0, (h r (by simp) c0 h0).2⟩

/-! ## The property -/

/-- C81 (partial), without saving blobs to files: a reader of the document gets the name of the table, the
description of every field, and for every record exported, in order, the names of the fields with their
values. Missing: values with a raw `<` (`raw_value_unreadable`), names that are no names of elements; that
the records exported are those of the table (`all_loses_records`); blobs in files (`blobs_nested`).
The records exported are those of the first primary index, else those found. -/
theorem export_reads_partial (lower : Str → Str) (acc : Access R) (get : Nat → R) (table : Str) (cols keys : List Column) (idxs : List Idx) (found exported : List Nat)
    (mkdir : Bool) (junk : Int) (file : Str) (value : Nat → Column → Option Str)
    (hexp : (∃ l i l', idxs = l ++ i :: l' ∧ (∀ x ∈ l, x.primary = false) ∧ i.primary = true ∧ exported = i.order) ∨
      ((∀ x ∈ idxs, x.primary = false) ∧ exported = found))
    (ht : GoodName table) (hc : ∀ c ∈ cols, GoodName c.name ∧ GoodName c.type)
    (hv : ∀ n ∈ exported, ∀ c ∈ cols, Plain (value n c) ∧
      (value n c = none → acc.null (get n) c = .ok true) ∧
      ∀ v, value n c = some v → acc.null (get n) c = .ok false ∧ acc.xml (get n) c = .ok v)
    (hk : junk = -((cols.filter (·.image)).length : Int) ∨ ∀ n ∈ exported, ∀ c ∈ keys, ∃ t, acc.text (get n) c = .ok t) :
    ∃ doc, exportXml lower acc get table cols keys idxs found false mkdir junk file = .ok (doc, []) ∧
      Spec.read doc = some ⟨[("Name".toList, table)],
        cols.map (fun c => [("Name".toList, c.name), ("Type".toList, c.type), ("Length".toList, (Nat.repr c.length).toList),
          ("Precision".toList, (Nat.repr c.precision).toList), ("NotNull".toList, (if c.nullable then "false" else "true").toList)]),
        exported.map (fun n => cols.map (fun c => (c.name, value n c)))⟩ := by
  have hnum : numbers idxs found = exported := by
    unfold numbers
    rcases hexp with ⟨l, i, l', rfl, h1, h2, rfl⟩ | ⟨h1, rfl⟩
    · have e : (l ++ i :: l').find? (·.primary) = some i := by
        rw [List.find?_append, List.find?_eq_none.2 (by simpa using h1)]
        simp [h2]
      rw [e]
    · rw [List.find?_eq_none.2 (by simpa using h1)]
  have hp : ∀ n ∈ exported, ∀ c ∈ cols, plainCell acc (get n) c = .ok (value n c) ∧ Plain (value n c) := by
    intro n hn c hcc
    obtain ⟨h1, h2, h3⟩ := hv n hn c hcc
    refine ⟨?_, h1⟩
    unfold plainCell
    cases hq : value n c with
    | none => rw [h2 hq]; rfl
    | some v =>
      rw [(h3 v hq).1]
      show (acc.xml (get n) c >>= fun v => Outcome.ok (some v)) = _
      rw [(h3 v hq).2]
      rfl
  -- the records replaced by their numbers, so that values may depend on the number
  let acc' : Access Nat := ⟨fun n => acc.null (get n), fun n => acc.xml (get n), fun n => acc.text (get n), fun n => acc.save (get n)⟩
  have hrec : ∀ (images : Int) (rs : List Nat) (b : Blobs), records lower acc keys cols false mkdir images (rs.map get) b = records lower acc' keys cols false mkdir images rs b := by
    intro images rs
    induction rs with
    | nil => intro b; rfl
    | cons n rs ih =>
      intro b
      rw [List.map_cons, records, records]
      have a1 : nameRecord lower acc' keys images n b = nameRecord lower acc keys images (get n) b := rfl
      have a2 : ∀ cs b, cells acc' false mkdir images n cs b = cells acc false mkdir images (get n) cs b := by
        intro cs
        induction cs with
        | nil => intro b; rfl
        | cons c cs ih2 =>
          intro b
          rw [cells, cells]
          have a3 : cell acc' false mkdir images n c b = cell acc false mkdir images (get n) c b := rfl
          rw [a3]
          simp only [ih2]
      rw [a1]
      simp only [a2, ih]
  obtain ⟨t, b', e, hs, hr⟩ := records_read lower acc' keys cols mkdir (junk + (cols.filter (·.image)).length) value (fun c h => (hc c h).1) exported
    (fun n hn c hcc => hp n hn c hcc) (fun n hn hi => by
      rcases hk with hk | hk
      · exact absurd (by omega) hi
      · exact hk n hn) ⟨[], 0, [file ++ ".blob".toList], false, []⟩
  refine ⟨head table ++ cols.flatMap fieldText ++ "\t</Fields>\r\n\t<Records>\r\n".toList ++ t ++ "\t</Records>\r\n</Table>\r\n".toList, ?_, ?_⟩
  · unfold exportXml
    rw [hnum]
    dsimp only
    rw [hrec, e]
    show Outcome.ok (_, b'.saved) = _
    rw [hs]
  · unfold Spec.read
    rw [List.append_assoc, List.append_assoc, List.append_assoc, read_head _ _ ht, read_fields _ _ hc, read_between, hr, read_tail]
    simp only [List.nil_append]
    congr 2
    refine List.map_congr_left fun c _ => ?_
    unfold fieldAttrs
    cases c.nullable <;> rfl

/-! ## Disagreements -/

/-- What exports of all tables find: nothing of a table with indexes none of which is primary, whatever
records it has. -/
theorem all_loses_records (lower : Str → Str) (acc : Access R) (get : Nat → R) (table : Str) (cols keys : List Column) (idxs : List Idx) (live : List Nat)
    (mkdir : Bool) (junk : Int) (file : Str) (h0 : idxs ≠ []) (h : ∀ x ∈ idxs, x.primary = false)
    (ht : GoodName table) (hc : ∀ c ∈ cols, GoodName c.name ∧ GoodName c.type) :
    ∃ doc d, exportXml lower acc get table cols keys idxs (foundForAll idxs live) false mkdir junk file = .ok (doc, []) ∧ Spec.read doc = some d ∧ d.rows = [] := by
  have hf : foundForAll idxs live = [] := by
    unfold foundForAll
    cases idxs with
    | nil => exact absurd rfl h0
    | cons a l => rfl
  rw [hf]
  obtain ⟨doc, h1, h2⟩ := export_reads_partial lower acc get table cols keys idxs [] [] mkdir junk file (fun _ _ => none) (.inr ⟨h, rfl⟩) ht hc (by simp) (.inr (by simp))
  exact ⟨doc, _, h1, h2, rfl⟩

/-- The paths saved so far, and the directory the last of them has become. -/
def Nested (b : Blobs) : Prop := b.saved.Pairwise (fun p q => p <+: q ∧ p.length < q.length) ∧ ∀ p ∈ b.saved, p <+: b.dir

theorem blobCell_nested {acc : Access R} {images : Int} {mkdir : Bool} {r : R} {c : Column} {b : Blobs} {x : Option Str × Blobs}
    (h : blobCell acc images mkdir r c b = .ok x) (hb : Nested b) : Nested x.2 := by
  unfold blobCell at h
  split at h
  · dsimp only at h
    generalize blobName images c b = n at h
    cases hs : acc.save r c (b.dir ++ [n]) with
    | throw => rw [hs] at h; cases h
    | ub => rw [hs] at h; cases h
    | ok v =>
      rw [hs] at h
      cases h
      refine ⟨?_, ?_⟩
      · show (b.saved ++ [b.dir ++ [n]]).Pairwise _
        refine List.pairwise_append.2 ⟨hb.1, List.pairwise_singleton _ _, ?_⟩
        intro p hp q hq
        rw [List.mem_singleton] at hq
        subst hq
        refine ⟨(hb.2 p hp).trans (List.prefix_append _ _), ?_⟩
        have := (hb.2 p hp).length_le
        simp
        omega
      · intro p hp
        show p <+: b.dir ++ [n]
        rcases List.mem_append.1 hp with hp | hp
        · exact (hb.2 p hp).trans (List.prefix_append _ _)
        · rw [List.mem_singleton] at hp
          subst hp
          exact List.prefix_refl _
  · cases h
    exact hb

theorem cells_nested {acc : Access R} {toFile mkdir : Bool} {images : Int} {r : R} : ∀ {cols : List Column} {b : Blobs} {x : Str × Blobs},
    cells acc toFile mkdir images r cols b = .ok x → Nested b → Nested x.2 := by
  intro cols
  induction cols with
  | nil => intro b x h hb; cases h; exact hb
  | cons c cols ih =>
    intro b x h hb
    rw [cells] at h
    cases h1 : cell acc toFile mkdir images r c b with
    | throw => rw [h1] at h; cases h
    | ub => rw [h1] at h; cases h
    | ok y =>
      rw [h1] at h
      have hy : Nested y.2 := by
        unfold cell at h1
        split at h1
        · cases h2 : blobCell acc images mkdir r c b with
          | throw => rw [h2] at h1; cases h1
          | ub => rw [h2] at h1; cases h1
          | ok z => rw [h2] at h1; cases h1; exact blobCell_nested h2 hb
        · cases h2 : plainCell acc r c with
          | throw => rw [h2] at h1; cases h1
          | ub => rw [h2] at h1; cases h1
          | ok z => rw [h2] at h1; cases h1; exact hb
      change (cells acc toFile mkdir images r cols y.2 >>= _) = _ at h
      cases h3 : cells acc toFile mkdir images r cols y.2 with
      | throw => rw [h3] at h; cases h
      | ub => rw [h3] at h; cases h
      | ok z => rw [h3] at h; cases h; exact ih (x := z) h3 hy

theorem nameRecord_nested {lower : Str → Str} {acc : Access R} {keys : List Column} {images : Int} {r : R} {b b' : Blobs}
    (h : nameRecord lower acc keys images r b = .ok b') (hb : Nested b) : Nested b' := by
  unfold nameRecord at h
  split at h
  · cases h1 : recordName acc keys r with
    | throw => rw [h1] at h; cases h
    | ub => rw [h1] at h; cases h
    | ok t =>
      rw [h1] at h
      cases h
      split <;> exact hb
  · cases h
    exact hb

theorem records_nested {lower : Str → Str} {acc : Access R} {keys cols : List Column} {toFile mkdir : Bool} {images : Int} :
    ∀ {rs : List R} {b : Blobs} {x : Str × Blobs}, records lower acc keys cols toFile mkdir images rs b = .ok x → Nested b → Nested x.2 := by
  intro rs
  induction rs with
  | nil => intro b x h hb; cases h; exact hb
  | cons r rs ih =>
    intro b x h hb
    rw [records] at h
    cases h1 : nameRecord lower acc keys images r b with
    | throw => rw [h1] at h; cases h
    | ub => rw [h1] at h; cases h
    | ok b1 =>
      rw [h1] at h
      change (cells acc toFile mkdir images r cols b1 >>= _) = _ at h
      cases h2 : cells acc toFile mkdir images r cols b1 with
      | throw => rw [h2] at h; cases h
      | ub => rw [h2] at h; cases h
      | ok y =>
        rw [h2] at h
        change (records lower acc keys cols toFile mkdir images rs y.2 >>= _) = _ at h
        cases h3 : records lower acc keys cols toFile mkdir images rs y.2 with
        | throw => rw [h3] at h; cases h
        | ub => rw [h3] at h; cases h
        | ok z => rw [h3] at h; cases h; exact ih (x := z) h3 (cells_nested h2 (nameRecord_nested h1 hb))

/-- Of the paths at which the blobs of a table are to be saved every one is below all those before it: the
second blob is to be put below the file of the first. -/
theorem blobs_nested (lower : Str → Str) (acc : Access R) (get : Nat → R) (table : Str) (cols keys : List Column) (idxs : List Idx) (found : List Nat)
    (toFile mkdir : Bool) (junk : Int) (file : Str) (doc : Str) (saved : List (List Str))
    (h : exportXml lower acc get table cols keys idxs found toFile mkdir junk file = .ok (doc, saved)) :
    saved.Pairwise (fun p q => p <+: q ∧ p.length < q.length) := by
  unfold exportXml at h
  dsimp only at h
  cases h1 : records lower acc keys cols toFile mkdir (junk + (cols.filter (·.image)).length) ((numbers idxs found).map get) ⟨[], 0, [file ++ ".blob".toList], false, []⟩ with
  | throw => rw [h1] at h; cases h
  | ub => rw [h1] at h; cases h
  | ok x =>
    rw [h1] at h
    cases h
    exact (records_nested h1 ⟨List.Pairwise.nil, by simp⟩).1

/-- The file of the first blob is where it should be: in the directory of the document, under the name of the record
(the texts of the fields of the index), with the name of the field if there are several of images. -/
theorem first_blob (lower : Str → Str) (acc : Access R) (images : Int) (r : R) (c : Column) (keys : List Column) (file n : Str) (v : Bool)
    (hi : images ≠ 0) (hn : recordName acc keys r = .ok n) (hne : lower n ≠ lower [])
    (hs : acc.save r c [file ++ ".blob".toList, if images > 1 then (if n = [] then [] else n ++ ['_']) ++ c.name else n] = .ok v) :
    ∃ b x b', nameRecord lower acc keys images r ⟨[], 0, [file ++ ".blob".toList], false, []⟩ = .ok b ∧ blobCell acc images true r c b = .ok (x, b') ∧
      b'.saved = [[file ++ ".blob".toList, if images > 1 then (if n = [] then [] else n ++ ['_']) ++ c.name else n]] ∧
      x = if v then some (if images > 1 then (if n = [] then [] else n ++ ['_']) ++ c.name else n) else none := by
  have h1 : nameRecord lower acc keys images r ⟨[], 0, [file ++ ".blob".toList], false, []⟩ = .ok ⟨n, 0, [file ++ ".blob".toList], false, []⟩ := by
    unfold nameRecord
    rw [if_pos hi, hn]
    show Outcome.ok _ = _
    rw [if_neg hne]
  have h2 : blobName images c ⟨n, 0, [file ++ ".blob".toList], false, []⟩ = if images > 1 then (if n = [] then [] else n ++ ['_']) ++ c.name else n := by
    unfold blobName
    dsimp only
    rw [if_neg (by simp)]
    cases n <;> simp
  refine ⟨_, _, ⟨n, 0, [file ++ ".blob".toList] ++ [if images > 1 then (if n = [] then [] else n ++ ['_']) ++ c.name else n], true,
    [] ++ [[file ++ ".blob".toList] ++ [if images > 1 then (if n = [] then [] else n ++ ['_']) ++ c.name else n]]⟩, h1, ?_, ?_, rfl⟩
  · unfold blobCell
    rw [if_pos (by simp), h2]
    dsimp only
    simp only [List.singleton_append]
    rw [hs]
    rfl
  · rfl

/-- The second of two records of the same name: its blob gets no number but the character of code 2. -/
theorem repeated_name (lower : Str → Str) (acc : Access R) (keys : List Column) (r : R) (c : Column) (n : Str) (b : Blobs) (hn : recordName acc keys r = .ok n)
    (hb : b.recname = n) (h0 : b.repeats = 0) :
    ∃ b', nameRecord lower acc keys 1 r b = .ok b' ∧ blobName 1 c b' = n ++ ['_', Char.ofNat 2] := by
  refine ⟨{ b with repeats := b.repeats + 1 }, ?_, ?_⟩
  · unfold nameRecord
    rw [if_pos (by decide), hn]
    show Outcome.ok _ = _
    rw [if_pos (by rw [hb])]
  · unfold blobName
    simp [h0, hb]

/-- A table without fields of images, whose first record has a null value in the index: it is exported if the
number of such fields happens to begin with 0, and not if it happens to begin with something else. -/
theorem junk_refuses (lower : Str → Str) (acc : Access R) (get : Nat → R) (table : Str) (cols keys : List Column) (idxs : List Idx) (found : List Nat)
    (toFile mkdir : Bool) (junk : Int) (file : Str) (c : Column) (n : Nat) (ns : List Nat) (hn : numbers idxs found = n :: ns)
    (hc : ∀ c ∈ cols, c.image = false) (hj : junk ≠ 0) (ht : acc.text (get n) c = .throw) :
    exportXml lower acc get table cols (c :: keys) idxs found toFile mkdir junk file = .throw := by
  have hf : cols.filter (·.image) = [] := List.filter_eq_nil_iff.2 (by simpa using hc)
  unfold exportXml
  rw [hn, hf, List.map_cons]
  dsimp only
  rw [records]
  unfold nameRecord recordName
  rw [if_pos (by simpa using hj), List.foldlM_cons, ht]
  rfl

/-! ## Cases -/

/-- A code, a text that may be null, and an image. -/
def demoCols : List Column := [⟨"ID".toList, "binary".toList, 16, 0, false, false⟩, ⟨"NAME".toList, "string".toList, 5, 0, true, false⟩, ⟨"BIG".toList, "image".toList, 0, 0, false, true⟩]
/-- Two records, the second with a null name. -/
def demoAcc : Access (Str × Option Str) :=
  ⟨fun r c => .ok (c.name = "NAME".toList && r.2.isNone), fun r c => .ok (if c.name = "NAME".toList then r.2.getD [] else r.1),
   fun r c => if c.name = "NAME".toList then (match r.2 with | none => .throw | some v => .ok v) else .ok r.1, fun _ _ _ => .ok true⟩
def demoGet : Nat → Str × Option Str
  | 0 => ("a1".toList, some "x &amp; y".toList)
  | _ => ("b2".toList, none)

example : ∃ doc, exportXml id demoAcc demoGet "T1".toList demoCols [demoCols[0]] [⟨false, [0, 1]⟩, ⟨true, [1, 0]⟩] [] false true 7 "t.xml".toList = .ok (doc, []) ∧
    (Spec.read doc).map Doc.rows = some [[("ID".toList, some "b2".toList), ("NAME".toList, none), ("BIG".toList, some "b2".toList)],
      [("ID".toList, some "a1".toList), ("NAME".toList, some "x &amp; y".toList), ("BIG".toList, some "a1".toList)]] := by
  obtain ⟨doc, h1, h2⟩ := export_reads_partial id demoAcc demoGet "T1".toList demoCols [demoCols[0]] [⟨false, [0, 1]⟩, ⟨true, [1, 0]⟩] [] [1, 0] true 7 "t.xml".toList
    (fun n c => if c.name = "NAME".toList ∧ n = 1 then none else some (if c.name = "NAME".toList then "x &amp; y".toList else (demoGet n).1))
    (.inl ⟨[⟨false, [0, 1]⟩], ⟨true, [1, 0]⟩, [], rfl, by simp, rfl, rfl⟩) (by unfold GoodName; decide) (by unfold GoodName; decide)
    (by unfold Plain
        intro n hn c hc
        simp only [List.mem_cons, List.not_mem_nil, or_false] at hn
        simp only [demoCols, List.mem_cons, List.not_mem_nil, or_false] at hc
        rcases hn with rfl | rfl <;> rcases hc with rfl | rfl | rfl <;> exact ⟨(fun t ht => by cases ht; try decide), (fun h => by first | rfl | cases h), fun v hv => by cases hv; try exact ⟨rfl, rfl⟩⟩)
    (.inr (by
        intro n hn c hc
        simp only [List.mem_cons, List.not_mem_nil, or_false] at hc
        subst hc
        exact ⟨_, rfl⟩))
  refine ⟨doc, h1, ?_⟩
  rw [h2]
  rfl

/-- The same table with the images in files: the second is to be put below the first. -/
example : ∃ doc, exportXml id demoAcc demoGet "T1".toList demoCols [demoCols[0]] [⟨true, [1, 0]⟩] [] true true 0 "t.xml".toList =
    .ok (doc, [["t.xml.blob".toList, "b2".toList], ["t.xml.blob".toList, "b2".toList, "a1".toList]]) := ⟨_, rfl⟩

/-- The same, when the number of images begins with 1: the names of the files are different. -/
example : ∃ doc, exportXml id demoAcc demoGet "T1".toList demoCols [demoCols[0]] [⟨true, [1, 0]⟩] [] true true 1 "t.xml".toList =
    .ok (doc, [["t.xml.blob".toList, "b2_BIG".toList], ["t.xml.blob".toList, "b2_BIG".toList, "a1_BIG".toList]]) := ⟨_, rfl⟩

/-- Its two indexes are not primary: all tables exported, the two records are not in the document. -/
example : ∃ doc d, exportXml id demoAcc demoGet "T1".toList demoCols [] [⟨false, [0, 1]⟩] (foundForAll [⟨false, [0, 1]⟩] [0, 1]) false true 0 "t.xml".toList = .ok (doc, []) ∧
    Spec.read doc = some d ∧ d.rows = [] :=
  all_loses_records _ _ _ _ _ _ _ _ _ _ _ (by simp) (by simp) (by unfold GoodName; decide) (by unfold GoodName; decide)

/-- A null value in the index of a table without images. -/
example : exportXml id demoAcc demoGet "T1".toList (demoCols.take 2) [demoCols[1]] [⟨true, [1, 0]⟩] [] false true 5 "t.xml".toList = .throw :=
  junk_refuses _ _ _ _ _ _ _ _ _ _ _ _ _ 1 [0] rfl (by decide) (by decide) rfl
example : ∃ x, exportXml id demoAcc demoGet "T1".toList (demoCols.take 2) [demoCols[1]] [⟨true, [1, 0]⟩] [] false true 0 "t.xml".toList = .ok x := ⟨_, rfl⟩

/-- The value read back if it is well-formed; with a raw `<` in it (property C70) the document cannot be
read. -/
def rawAcc : Access Unit := ⟨fun _ _ => .ok false, fun _ _ => .ok "<".toList, fun _ _ => .ok [], fun _ _ _ => .ok true⟩
theorem raw_value_unreadable : ∃ doc, exportXml id rawAcc (fun _ => ()) "T".toList (demoCols.take 1) [] [] [0] false true 0 "t.xml".toList = .ok (doc, []) ∧
    Spec.read doc = none := by
  refine ⟨_, rfl, ?_⟩
  decide +kernel

end Verif.Export
