import Verif.Config.StoredSpec
import Verif.Config.FilesTheorems
import Verif.Field.Theorems
import Verif.Format.Theorems
import Verif.Cli.Theorems
import Verif.Record.Theorems

/-!
# C106: a table of files, from the bytes of its records
-/

namespace Verif.Config
open Verif Record

/-! ## The columns -/

theorem wantNames_eq (cols : List Col) (ws : List String) : wantNames cols ws = Format.checkNames (cols.map (·.name)) ws := by
  induction ws generalizing cols with
  | nil => cases cols <;> rfl
  | cons w ws ih =>
    cases cols with
    | nil => rfl
    | cons c cs =>
      unfold wantNames
      rw [List.map_cons]
      unfold Format.checkNames
      rw [ih]

/-- **C106.** The table is taken as a store exactly if its columns have the required names. -/
theorem test_table_iff (cols : List Col) (ns : List (List Nat)) (hn : ∀ n ∈ ns, Unicode.Spec.Name n)
    (hc : cols.map (·.name) = ns.map Unicode.Spec.utf8Text) :
    (Format.Spec.FileFields ns → testTable cols = .ok ()) ∧ (¬ Format.Spec.FileFields ns → testTable cols = .throw) := by
  have e : (do let _ ← Format.checkFields (some ⟨[], cols.map (·.name), []⟩); Outcome.ok ()) = testTable cols := by
    unfold Format.checkFields testTable
    dsimp only
    rw [wantNames_eq, wantNames_eq, List.length_map, List.map_drop]
    split
    · rfl
    · split
      · rfl
      · cases Format.checkNames (cols.map (·.name)) ["FILENAME", "CREATION", "MODIFIED", "ATTRIBUTES", "DATASIZE", "BINARYDATA"] with
        | ok _ =>
          simp only [Outcome.ok_bind]
          split
          · cases Format.checkNames ((cols.map (·.name)).drop 6) ["PARTNO"] <;> rfl
          · rfl
        | throw => rfl
        | ub => rfl
  obtain ⟨h1, h2⟩ := Format.checkFields_spec ⟨[], cols.map (·.name), []⟩ ns hn hc
  rw [← e]
  exact ⟨fun h => by rw [h1 h]; rfl, fun h => by rw [h2 h]; rfl⟩

theorem named_length {cols : List Col} (h : Spec.Named cols) : cols.length = 6 ∨ cols.length = 7 := by
  obtain ⟨ns, _, h2, h3⟩ := h
  have hl : cols.length = ns.length := by have := congrArg List.length h3; simpa using this
  rcases h2 with h2 | h2
  · have := Format.sameNames_length _ _ h2
    exact Or.inl (by rw [hl, this]; rfl)
  · have := Format.sameNames_length _ _ h2
    exact Or.inr (by rw [hl, this]; rfl)

/-! ## The values of a record -/

theorem natText_digits : ∀ n : Nat, ∃ ds : List Nat, ds ≠ [] ∧ (∀ d ∈ ds, d < 10) ∧
    Field.toBytes (Decimal.Spec.natText n) = Cli.Spec.digits ds ∧ Cli.Spec.value ds = n := by
  intro n
  induction n using Nat.strongRecOn with
  | _ n ih =>
    have hd : ∀ d, d < 10 → UInt8.ofNat (Decimal.Spec.digit d).toNat = UInt8.ofNat (48 + d) := by
      intro d hd
      rw [Decimal.toNat_digit hd]
    unfold Decimal.Spec.natText
    split
    · rename_i h
      refine ⟨[n], by simp, by simpa using h, ?_, by simp [Cli.Spec.value]⟩
      unfold Field.toBytes Cli.Spec.digits
      simp only [List.map_cons, List.map_nil, hd n h]
    · rename_i h
      obtain ⟨ds, h1, h2, h3, h4⟩ := ih (n / 10) (by omega)
      refine ⟨ds ++ [n % 10], by simp, ?_, ?_, ?_⟩
      · intro d hd
        rcases List.mem_append.mp hd with hd | hd
        · exact h2 d hd
        · rw [List.mem_singleton.mp hd]; omega
      · unfold Field.toBytes Cli.Spec.digits at h3 ⊢
        rw [List.map_append, List.map_append, h3]
        simp only [List.map_cons, List.map_nil, hd (n % 10) (by omega)]
      · unfold Cli.Spec.value at h4 ⊢
        rw [List.foldl_append, h4]
        simp only [List.foldl_cons, List.foldl_nil]
        omega

theorem canonical_zero (n : Nat) : Decimal.Spec.canonical n 0 = Decimal.Spec.natText n := by
  unfold Decimal.Spec.canonical
  simp [Decimal.Spec.padText, Decimal.Spec.dropTrailingZeros, Nat.mod_one]

theorem number_read (sh : Field.Show) (c : Col) (r : Bytes) (n : Nat) (ht : c.fld.ty.type = .numeric) (hp : c.fld.ty.precision = 0)
    (h : Spec.HoldsNumber c r n) (hn : n < 2 ^ 31) :
    ∃ s, Field.getString sh c.fld r = .ok s ∧ Cli.toIntDef (Field.toBytes s) 0 = .ok (n : Int) := by
  obtain ⟨ds, v, h1, h2, h3, h4, h5, h6⟩ := h
  obtain ⟨v', g1, g2⟩ := Field.number_text sh c.fld ds [] (by simpa using h1) h3 (by simp) ht (by simpa using h2.symm) hp
  rw [List.append_nil, List.length_nil, h5] at g1
  cases g1
  refine ⟨_, by rw [Field.value_string sh c.fld v r h6]; exact g2 r h6 false false false, ?_⟩
  rw [List.append_nil, List.length_nil, canonical_zero, h4]
  obtain ⟨es, k1, k2, k3, k4⟩ := natText_digits n
  rw [k3]
  have := Cli.toIntDef_number false es k1 k2 (by rw [k4]; omega) [] (by simp) 0
  simpa [k4] using this

theorem text_read (sh : Field.Show) (c : Col) (r : Bytes) (cps : List Nat) (ht : c.fld.ty.type = .varchar) (hl : c.fld.ty.length < 32768)
    (h : Spec.HoldsText c r cps) : Field.getString sh c.fld r = .ok (Field.Spec.utf8Str cps) := by
  obtain ⟨h1, fill, h2, h3⟩ := h
  rw [Field.value_string sh c.fld _ r h3]
  exact Field.varchar_text sh c.fld cps _ r ht h1 ⟨fill, rfl, h2⟩ hl h3 false false false

theorem place_read (c : Col) (r : Bytes) (start length : Nat) (h : Spec.HoldsPlace c r start length) :
    blobOf c.fld r = .ok (start, length) := by
  rcases h with ⟨a, b, ha, hb, rfl, rfl, h⟩ | ⟨hn, rfl, rfl, h⟩
  · have hg : Record.get r c.fld.slot 8 = .ok (some (a ++ b)) := by
      obtain ⟨pre, post, fl, hfl, hp, rfl⟩ := h
      unfold Record.get isNull
      cases hn : c.fld.nullable with
      | false =>
        simp only [Field.Fld.slot, hn, Bool.false_eq_true, if_false, Outcome.ok_bind, List.append_nil, Slot.dataOff, Nat.add_zero]
        rw [Field.load_at pre (a ++ b) post _ 8 hp (by simp [ha, hb])]
        rfl
      | true =>
        simp only [Field.Fld.slot, hn, if_true, Slot.dataOff]
        rw [show pre ++ [fl] ++ (a ++ b) ++ post = pre ++ [fl] ++ (a ++ b ++ post) by simp, Field.load_at pre [fl] _ _ 1 hp rfl]
        simp only [Outcome.ok_bind]
        have hdec : decide ([fl] = [0]) = false := decide_eq_false (by simpa using hfl)
        rw [hdec]
        simp only [Bool.false_eq_true, if_false]
        rw [show pre ++ [fl] ++ (a ++ b ++ post) = (pre ++ [fl]) ++ (a ++ b) ++ post by simp,
          Field.load_at (pre ++ [fl]) (a ++ b) post _ 8 (by simp [hp]) (by simp [ha, hb])]
        rfl
    unfold blobOf
    rw [hg]
    have e1 := Field.rdU32_load [] a b 0 rfl ha
    have e2 := Field.rdU32_load a b [] 4 ha hb
    rw [List.nil_append] at e1
    rw [List.append_nil] at e2
    simp only [Outcome.ok_bind, e1, e2]
  · have hlt : c.fld.offset < r.length := by
      rcases Nat.lt_or_ge c.fld.offset r.length with h' | h'
      · exact h'
      · rw [List.getElem?_eq_none h'] at h; cases h
    have hg : Record.get r c.fld.slot 8 = .ok none := by
      unfold Record.get isNull
      simp only [Field.Fld.slot, hn, if_true]
      rw [load_ok (by omega)]
      have : (r.drop c.fld.offset).take 1 = [0] := by
        rw [List.drop_eq_getElem_cons hlt]
        rw [List.getElem?_eq_getElem hlt] at h
        cases h' : r[c.fld.offset] with
        | _ => simp_all
      rw [this]
      rfl
    unfold blobOf
    rw [hg]
    rfl

theorem date_digits (v post : Bytes) (hv : v.length = 7) (hp : 3 ≤ post.length) :
    ∃ d, Decimal.dateOfRaw (v ++ post) = .ok d ∧ d.data.take 14 = Spec.nibbles v := by
  obtain ⟨a0, v, rfl⟩ := List.exists_cons_of_length_eq_add_one hv
  obtain ⟨a1, v, rfl⟩ := List.exists_cons_of_length_eq_add_one (Nat.succ.inj hv)
  obtain ⟨a2, v, rfl⟩ := List.exists_cons_of_length_eq_add_one (Nat.succ.inj (Nat.succ.inj hv))
  obtain ⟨a3, v, rfl⟩ := List.exists_cons_of_length_eq_add_one (n := 3) (by simpa using hv)
  obtain ⟨a4, v, rfl⟩ := List.exists_cons_of_length_eq_add_one (n := 2) (by simpa using hv)
  obtain ⟨a5, v, rfl⟩ := List.exists_cons_of_length_eq_add_one (n := 1) (by simpa using hv)
  obtain ⟨a6, v, rfl⟩ := List.exists_cons_of_length_eq_add_one (n := 0) (by simpa using hv)
  have hv0 : v = [] := List.length_eq_zero_iff.mp (by simpa using hv)
  subst hv0
  match post, hp with
  | b0 :: b1 :: b2 :: post, _ =>
    refine ⟨⟨false, 0, Spec.nibbles [a0, a1, a2, a3, a4, a5, a6] ++
      [Decimal.hi b0, Decimal.lo b0, Decimal.hi b1, Decimal.lo b1, Decimal.hi b2, Decimal.lo b2], 1⟩, ?_, rfl⟩
    unfold Decimal.dateOfRaw Decimal.ofRaw
    simp [Decimal.rawLoop_done, Decimal.rawLoop, Spec.nibbles, Decimal.hi_nat, Decimal.lo_nat]

theorem time_read (e : Lib) (c : Col) (r : Bytes) (t : Nat) (h : Spec.HoldsTime e.clock c r t) : timeOf e c.fld r = .ok t := by
  obtain ⟨pre, v, post, rfl, hp, hv, h3, rfl⟩ := h
  have ho : c.fld.slot.dataOff = pre.length := by rw [hp]; rfl
  obtain ⟨d, h1, h2⟩ := date_digits v post hv h3
  unfold timeOf
  rw [ho, List.append_assoc, List.drop_left, h1, Outcome.ok_bind, h2]

theorem col_some {cols : List Col} {i : Nat} (h : i < cols.length) : ∃ c, cols[i]? = some c ∧ col cols i = .ok c.fld := by
  refine ⟨cols[i], List.getElem?_eq_getElem h, ?_⟩
  unfold col
  rw [List.getElem?_eq_getElem h]

theorem rowOf_held (e : Lib) (cols : List Col) (hl : cols.length = 6 ∨ cols.length = 7) (hc : Spec.Columns cols) (r : Bytes) (row : Row)
    (h : Spec.Held e.clock cols r row) : rowOf e cols r = .ok (if live row then [row] else []) := by
  cases h with
  | removed b rest hr hb hrow =>
    subst hr
    unfold rowOf
    rw [isRemoved_of _ (by simp)]
    simp [hb, live, hrow]
  | here rest cps hr hrow hname hn hcre hmod hplace hpart hsix =>
    have hrm : isRemoved r = .ok false := by
      rw [isRemoved_of _ (by rw [hr]; simp), hr]
      simp
    obtain ⟨c0, g0, k0⟩ := col_some (cols := cols) (i := 0) (by omega)
    obtain ⟨c1, g1, k1⟩ := col_some (cols := cols) (i := 1) (by omega)
    obtain ⟨c2, g2, k2⟩ := col_some (cols := cols) (i := 2) (by omega)
    obtain ⟨c5, g5, k5⟩ := col_some (cols := cols) (i := 5) (by omega)
    have hb := place_read c5 r _ _ (hplace c5 g5)
    have hs := text_read e.sh c0 r cps (hc.name c0 g0).1 (hc.name c0 g0).2 (hname c0 g0)
    have hp : partOf e cols r = .ok row.part := by
      unfold partOf
      rcases hl with hl | hl
      · rw [if_neg (by omega), hsix hl]
      · rw [if_pos (by omega)]
        obtain ⟨c6, g6, k6⟩ := col_some (cols := cols) (i := 6) (by omega)
        obtain ⟨n, q1, q2, q3⟩ := hpart c6 g6
        obtain ⟨s, s1, s2⟩ := number_read e.sh c6 r n (hc.part c6 g6).1 (hc.part c6 g6).2 q3 q2
        rw [k6, Outcome.ok_bind, s1, Outcome.ok_bind, s2, q1]
    unfold rowOf
    rw [hrm]
    simp only [Outcome.ok_bind, Bool.false_eq_true, if_false]
    rw [k5, Outcome.ok_bind, hb]
    simp only [Outcome.ok_bind]
    by_cases hz : row.start = 0 ∨ row.length = 0
    · rw [if_pos hz]
      have : live row = false := by
        unfold live
        rcases hz with hz | hz <;> simp [hz]
      rw [this]
      rfl
    · rw [if_neg hz]
      unfold takeRow
      rw [k0, Outcome.ok_bind, hs, Outcome.ok_bind, ← hn]
      by_cases hne : row.name.isEmpty = true
      · rw [if_pos hne]
        have : live row = false := by unfold live; simp [hne]
        rw [this]
        rfl
      · rw [if_neg hne, hp, Outcome.ok_bind, k1, Outcome.ok_bind, time_read e c1 r _ (hcre c1 g1), Outcome.ok_bind, k2, Outcome.ok_bind,
          time_read e c2 r _ (hmod c2 g2), Outcome.ok_bind]
        have hlive : live row = true := by
          unfold live
          simp only [not_or] at hz
          simp [hrow, hz.1, hz.2, hne]
        rw [hlive, if_pos rfl]
        obtain ⟨a1, a2, a3, a4, a5, a6, a7⟩ := row
        simp only at hrow
        subst hrow
        rfl

theorem rowsFrom_held (e : Lib) (cols : List Col) (hl : cols.length = 6 ∨ cols.length = 7) (hc : Spec.Columns cols) (t : Record.Tab) (n : Nat)
    (hw : Record.Spec.Whole t n) (rows : List Row) : ∀ (i : Nat), i + rows.length = n →
    (∀ j row, rows[j]? = some row → Spec.Held e.clock cols (Record.Spec.record t (i + j)) row) →
    rowsFrom e cols t rows.length i = .ok (rows.filter live) := by
  induction rows with
  | nil => intro i _ _; rfl
  | cons row rows ih =>
    intro i hi h
    rw [List.length_cons] at hi
    rw [List.length_cons]
    unfold rowsFrom
    rw [getRecord_ok hw (by omega), Outcome.ok_bind, rowOf_held e cols hl hc (Record.Spec.record t i) row (h 0 row rfl), Outcome.ok_bind,
      ih (i + 1) (by omega) (fun j q hq => by have := h (j + 1) q hq; rw [show i + 1 + j = i + (j + 1) by omega]; exact this), Outcome.ok_bind,
      List.filter_cons]
    split <;> rfl

theorem tableFiles_filter (lower : Str → Str) (rows : List Row) : tableFiles lower (rows.filter live) = tableFiles lower rows := by
  unfold tableFiles
  rw [List.filter_filter]
  simp only [Bool.and_self]

/-- **C106.** Opening a table of files reads exactly the rows its records hold. -/
theorem open_store_rows (e : Lib) (cols : List Col) (hn : Spec.Named cols) (hc : Spec.Columns cols) (t : Record.Tab) (rows : List Row)
    (hw : Record.Spec.Whole t rows.length)
    (h : ∀ j row, rows[j]? = some row → Spec.Held e.clock cols (Record.Spec.record t j) row) :
    openStore e (some (cols, t)) = (do let files ← tableFiles e.lower rows; .ok (true, files)) := by
  have hl := named_length hn
  obtain ⟨ns, h1, h2, h3⟩ := hn
  unfold openStore
  dsimp only
  rw [(test_table_iff cols ns h1 h3).1 h2, Outcome.ok_bind, (physNum_iff t hw.1 _).mpr hw, Outcome.ok_bind,
    rowsFrom_held e cols hl hc t _ hw rows 0 (by omega) (fun j row hj => by rw [Nat.zero_add]; exact h j row hj), Outcome.ok_bind,
    tableFiles_filter]

/-! ## Name and times of a file -/

theorem placeAll_append (lower : Str → Str) (a b : List Row) (m : List (Str × TFile)) :
    placeAll lower (a ++ b) m = placeAll lower b (placeAll lower a m) := by
  induction a generalizing m with
  | nil => rfl
  | cons r a ih => exact ih _

theorem placeAll_some (lower : Str → Str) (recs : List Row) (m : List (Str × TFile)) (key : Str) (f : TFile) (h : find m key = some f) :
    ∃ g, find (placeAll lower recs m) key = some g := by
  induction recs generalizing m f with
  | nil => exact ⟨f, h⟩
  | cons r recs ih =>
    unfold placeAll
    by_cases hk : lower r.name = key
    · exact ih _ _ (by rw [find_upd, if_pos hk])
    · exact ih _ f (by rw [find_upd, if_neg hk, h])

theorem placeAll_head (lower : Str → Str) (recs : List Row) (m : List (Str × TFile)) (key : Str) (f g : TFile) (h : find m key = some f)
    (hr : ∀ r ∈ recs, lower r.name = key → r.part ≠ 0) (hg : find (placeAll lower recs m) key = some g) :
    g.name = f.name ∧ g.created = f.created ∧ g.modified = f.modified := by
  induction recs generalizing m f with
  | nil =>
    unfold placeAll at hg
    rw [h] at hg
    cases hg
    exact ⟨rfl, rfl, rfl⟩
  | cons r recs ih =>
    unfold placeAll at hg
    by_cases hk : lower r.name = key
    · have := ih _ (place r (some f)) (by rw [find_upd, if_pos hk, hk, h]) (fun x hx => hr x (List.mem_cons_of_mem _ hx)) hg
      have hp := hr r (List.mem_cons_self ..) hk
      unfold place at this
      simp only [if_neg hp] at this
      exact this
    · exact ih _ f (by rw [find_upd, if_neg hk, h]) (fun x hx => hr x (List.mem_cons_of_mem _ hx)) hg

/-- Name and times of a file are those of the last record of its part 0. -/
theorem file_head (lower : Str → Str) (rows : List Row) (files : List (Str × TFile)) (h : tableFiles lower rows = .ok files) (name : Str) (tf : TFile)
    (hf : getFile lower files name = some tf) (r : Row) (hr : Spec.LastPart lower rows name 0 r) :
    tf.name = r.name ∧ tf.created = r.created ∧ tf.modified = r.modified := by
  obtain ⟨before, after, hrows, hc, hk, hp, hlast⟩ := hr
  have hrl : live r = true := (FilesTheorems.live_iff r).2 hc
  have hfil : rows.filter live = before.filter live ++ r :: after.filter live := by
    rw [hrows, List.filter_append, List.filter_cons, if_pos hrl]
  unfold tableFiles at h
  dsimp only at h
  split at h
  · cases h
  · cases h
    have hm := FilesTheorems.maxParts_spec lower (rows.filter live) [] [] (lower name) (fun _ h => by cases h)
    rw [List.nil_append] at hm
    cases hx : find (maxParts lower (rows.filter live) []) (lower name) with
    | none =>
      rw [hx] at hm
      exact absurd hk (hm r (by rw [hfil]; simp))
    | some x =>
      have h0 : find ((maxParts lower (rows.filter live) []).map (fun p => (p.1, newFile p.1 p.2))) (lower name) = some (newFile (lower name) x) := by
        rw [find_map, hx]; rfl
      generalize (maxParts lower (rows.filter live) []).map (fun p => (p.1, newFile p.1 p.2)) = m0 at h0 hf
      unfold getFile at hf
      rw [hfil, placeAll_append] at hf
      obtain ⟨g, hg⟩ := placeAll_some lower (before.filter live) m0 (lower name) _ h0
      unfold placeAll at hf
      have h1 : find (upd (placeAll lower (before.filter live) m0) (lower r.name) (place r)) (lower name) = some (place r (some g)) := by
        rw [find_upd, if_pos hk, hk, hg]
      have := placeAll_head lower (after.filter live) _ (lower name) _ tf h1 (fun y hy hyk => by
        obtain ⟨a1, a2⟩ := List.mem_filter.1 hy
        exact hlast y a1 ((FilesTheorems.live_iff y).1 a2) hyk) hf
      unfold place at this
      simp only [hp, Int.ofNat_eq_natCast, Int.natCast_zero, if_true] at this
      exact this

/-! ## Files in parts -/

theorem exists_last {α : Type} (P : α → Prop) (l : List α) (h : ∃ x ∈ l, P x) :
    ∃ a x b, l = a ++ x :: b ∧ P x ∧ ∀ y ∈ b, ¬ P y := by
  induction l with
  | nil => obtain ⟨x, hx, _⟩ := h; cases hx
  | cons z l ih =>
    cases Classical.em (∃ x ∈ l, P x) with
    | inl h' =>
      obtain ⟨a, x, b, rfl, h1, h2⟩ := ih h'
      exact ⟨z :: a, x, b, rfl, h1, h2⟩
    | inr h' =>
      obtain ⟨x, hx, hp⟩ := h
      rcases List.mem_cons.mp hx with rfl | hx
      · exact ⟨[], x, l, rfl, hp, fun y hy hpy => h' ⟨y, hy, hpy⟩⟩
      · exact absurd ⟨x, hx, hp⟩ h'

theorem nodup_map_inj {α β : Type} (f : α → β) (l : List α) (h : (l.map f).Nodup) : ∀ a ∈ l, ∀ b ∈ l, f a = f b → a = b := by
  induction l with
  | nil => intro a ha; cases ha
  | cons x l ih =>
    rw [List.map_cons, List.nodup_cons] at h
    intro a ha b hb e
    rcases List.mem_cons.mp ha with ha | ha <;> rcases List.mem_cons.mp hb with hb | hb
    · rw [ha, hb]
    · exact absurd (List.mem_map.mpr ⟨b, hb, by rw [← e, ha]⟩) h.1
    · exact absurd (List.mem_map.mpr ⟨a, ha, by rw [e, hb]⟩) h.1
    · exact ih h.2 a ha b hb e

theorem says_iff {lower : Str → Str} {rows : List Row} {files : List Spec.SFile} (h : Spec.Says lower rows files) (k : Str × Int × Nat × Nat) :
    (∃ r ∈ rows, Spec.Counts r ∧ (lower r.name, r.part, r.start, r.length) = k) ↔
      ∃ f ∈ files, ∃ (i : Nat) (p : (Nat × Nat) × Bytes), f.parts[i]? = some p ∧ k = (lower f.name, (i : Int), p.1.1, p.1.2) := by
  have hk := h.mem_iff (a := k)
  rw [List.mem_map, List.mem_flatMap] at hk
  constructor
  · rintro ⟨r, hr, hc, e⟩
    obtain ⟨f, hf, hm⟩ := hk.mp ⟨r, List.mem_filter.mpr ⟨hr, by simp [hc.1, hc.2.1, hc.2.2.1, hc.2.2.2]⟩, e⟩
    obtain ⟨i, hi, e2⟩ := List.mem_mapIdx.mp hm
    exact ⟨f, hf, i, f.parts[i], List.getElem?_eq_getElem hi, e2.symm⟩
  · rintro ⟨f, hf, i, p, hp, e⟩
    obtain ⟨hi, hpe⟩ := List.getElem?_eq_some_iff.mp hp
    obtain ⟨r, hr, e2⟩ := hk.mpr ⟨f, hf, List.mem_mapIdx.mpr ⟨i, hi, by rw [hpe]; exact e.symm⟩⟩
    obtain ⟨h1, h2⟩ := List.mem_filter.mp hr
    refine ⟨r, h1, ?_, e2⟩
    unfold Spec.Counts
    simpa [and_assoc] using h2

theorem says_found {lower : Str → Str} {rows : List Row} {files : List Spec.SFile} (h : Spec.Says lower rows files)
    (hd : (files.map (fun f => lower f.name)).Nodup) (hne : ∀ f ∈ files, f.parts ≠ []) :
    ∃ store, tableFiles lower rows = .ok store ∧ ∀ name,
      ((∀ f ∈ files, lower f.name ≠ lower name) → getFile lower store name = none) ∧
      ∀ f ∈ files, lower f.name = lower name → ∃ tf, getFile lower store name = some tf ∧ tf.addr = f.parts.map (·.1) ∧
        ∃ r ∈ rows, Spec.Counts r ∧ lower r.name = lower name ∧ r.part = 0 ∧ tf.name = r.name ∧ tf.created = r.created ∧ tf.modified = r.modified := by
  have hsame : ∀ f ∈ files, ∀ g ∈ files, lower f.name = lower g.name → f = g := by
    intro f hf g hg e
    exact nodup_map_inj (fun f : Spec.SFile => lower f.name) files hd f hf g hg e
  obtain ⟨store, s1, s2⟩ := FilesTheorems.files_lookup lower rows (by
    intro r hr hc
    obtain ⟨f, _, i, p, _, e⟩ := (says_iff h _).mp ⟨r, hr, hc, rfl⟩
    have := congrArg (fun k => k.2.1) e
    simp only at this
    omega)
  refine ⟨store, s1, fun name => ⟨?_, ?_⟩⟩
  · intro hno
    refine (s2 name).1 ?_
    intro r hr hc e
    obtain ⟨f, hf, i, p, _, e2⟩ := (says_iff h _).mp ⟨r, hr, hc, rfl⟩
    exact hno f hf ((congrArg Prod.fst e2).symm.trans e)
  · intro f hf hname
    have row_of : ∀ (i : Nat) (p : (Nat × Nat) × Bytes), f.parts[i]? = some p → ∃ r ∈ rows, Spec.Counts r ∧ lower r.name = lower name ∧ r.part = i ∧ r.start = p.1.1 ∧ r.length = p.1.2 := by
      intro i p hp
      obtain ⟨r, hr, hc, e⟩ := (says_iff h _).mpr ⟨f, hf, i, p, hp, rfl⟩
      simp only [Prod.mk.injEq] at e
      exact ⟨r, hr, hc, e.1.trans hname, e.2.1, e.2.2.1, e.2.2.2⟩
    have part_of : ∀ r ∈ rows, Spec.Counts r → lower r.name = lower name → ∃ (i : Nat) (p : (Nat × Nat) × Bytes), f.parts[i]? = some p ∧ r.part = i ∧ r.start = p.1.1 ∧ r.length = p.1.2 := by
      intro r hr hc e
      obtain ⟨g, hg, i, p, hp, e2⟩ := (says_iff h _).mp ⟨r, hr, hc, rfl⟩
      simp only [Prod.mk.injEq] at e2
      cases hsame f hf g hg (hname.trans (e.symm.trans e2.1))
      exact ⟨i, p, hp, e2.2⟩
    have last_of : ∀ (i : Nat) (p : (Nat × Nat) × Bytes), f.parts[i]? = some p → ∃ r ∈ rows, Spec.Counts r ∧ lower r.name = lower name ∧ r.part = i ∧ Spec.LastPart lower rows name i r ∧
        r.start = p.1.1 ∧ r.length = p.1.2 := by
      intro i p hp
      obtain ⟨r0, hr0, hc0, e1, e2, _⟩ := row_of i p hp
      obtain ⟨a, r, b, hab, ⟨c1, c2, c3⟩, hlast⟩ := exists_last (fun r => Spec.Counts r ∧ lower r.name = lower name ∧ r.part = (i : Int)) rows ⟨r0, hr0, hc0, e1, e2⟩
      have hmem : r ∈ rows := by rw [hab]; simp
      obtain ⟨j, q, hq, d1, d2, d3⟩ := part_of r hmem c1 c2
      have hij : j = i := by rw [c3] at d1; omega
      subst hij
      rw [hp] at hq
      cases hq
      exact ⟨r, hmem, c1, c2, c3, ⟨a, b, hab, c1, c2, c3, fun y hy hc e hpart => hlast y hy ⟨hc, e, hpart⟩⟩, d2, d3⟩
    have hpos : 0 < f.parts.length := List.length_pos_iff.mpr (hne f hf)
    obtain ⟨p0, hp0⟩ : ∃ p, f.parts[0]? = some p := ⟨_, List.getElem?_eq_getElem hpos⟩
    obtain ⟨r0, hr0, hc0, e0, q0, l0, _⟩ := last_of 0 p0 hp0
    obtain ⟨tf, t1, ⟨rm, hrm, hcm, em, hlen⟩, t3, t4⟩ := (s2 name).2 ⟨r0, hr0, hc0, e0⟩
    have hl : tf.addr.length = f.parts.length := by
      obtain ⟨i, p, hp, d1, _⟩ := part_of rm hrm hcm em
      obtain ⟨hi, _⟩ := List.getElem?_eq_some_iff.mp hp
      obtain ⟨rl, hrl, hcl, el, ql, _⟩ := last_of (f.parts.length - 1) _ (List.getElem?_eq_getElem (by omega))
      have := t3 rl hrl hcl el
      omega
    refine ⟨tf, t1, ?_, r0, hr0, hc0, e0, q0, file_head lower rows store s1 name tf t1 r0 l0⟩
    apply List.ext_getElem?
    intro i
    rcases Nat.lt_or_ge i tf.addr.length with hi | hi
    · obtain ⟨p, hp⟩ : ∃ p, f.parts[i]? = some p := ⟨_, List.getElem?_eq_getElem (by omega)⟩
      obtain ⟨r, hr, hc, e, q, l, d1, d2⟩ := last_of i p hp
      rw [(t4 i hi).1 r l, List.getElem?_map, hp, d1, d2]
      rfl
    · rw [List.getElem?_eq_none hi, List.getElem?_eq_none (by rw [List.length_map]; omega)]

theorem readParts_all (readBlob : Nat → Nat → Outcome Bytes) (ps : List ((Nat × Nat) × Bytes)) (h : ∀ p ∈ ps, readBlob p.1.1 p.1.2 = .ok p.2) :
    ∀ acc, readParts readBlob (ps.map (·.1)) acc = .ok (acc ++ ps.flatMap (·.2)) := by
  induction ps with
  | nil => intro acc; simp [readParts]
  | cons p ps ih =>
    intro acc
    rw [List.map_cons]
    unfold readParts
    rw [h p (List.mem_cons_self ..), Outcome.ok_bind, ih (fun q hq => h q (List.mem_cons_of_mem _ hq)), List.flatMap_cons, List.append_assoc]

/-- **C106.** If the records of a table of files, in whatever order and with whatever removed records between them, hold the parts
of some files, then opening the table succeeds, and under a name, in any case of letters, there is nothing if no file has that
name, and otherwise its contents: the bytes of its parts one after the other. Its name and times are
those of a record of its first part. -/
theorem stored_files_found (e : Lib) (cols : List Col) (hn : Spec.Named cols) (hc : Spec.Columns cols) (t : Record.Tab) (rows : List Row)
    (hw : Record.Spec.Whole t rows.length)
    (hr : ∀ j row, rows[j]? = some row → Spec.Held e.clock cols (Record.Spec.record t j) row)
    (files : List Spec.SFile) (h : Spec.Says e.lower rows files) (hd : (files.map (fun f => e.lower f.name)).Nodup)
    (hne : ∀ f ∈ files, f.parts ≠ []) (readBlob : Nat → Nat → Outcome Bytes)
    (hb : ∀ f ∈ files, ∀ p ∈ f.parts, readBlob p.1.1 p.1.2 = .ok p.2) :
    ∃ store, openStore e (some (cols, t)) = .ok (true, store) ∧ ∀ name,
      ((∀ f ∈ files, e.lower f.name ≠ e.lower name) → getFile e.lower store name = none) ∧
      ∀ f ∈ files, e.lower f.name = e.lower name → ∃ tf, getFile e.lower store name = some tf ∧
        readParts readBlob tf.addr [] = .ok (f.parts.flatMap (·.2)) ∧
        ∃ r ∈ rows, Spec.Counts r ∧ e.lower r.name = e.lower name ∧ r.part = 0 ∧
          tf.name = r.name ∧ tf.created = r.created ∧ tf.modified = r.modified := by
  obtain ⟨store, s1, s2⟩ := says_found h hd hne
  refine ⟨store, ?_, fun name => ⟨(s2 name).1, ?_⟩⟩
  · rw [open_store_rows e cols hn hc t rows hw hr, s1]
    rfl
  · intro f hf hname
    obtain ⟨tf, t1, t2, t3⟩ := (s2 name).2 f hf hname
    refine ⟨tf, t1, ?_, t3⟩
    rw [t2, readParts_all readBlob f.parts (hb f hf) []]
    rfl

end Verif.Config
