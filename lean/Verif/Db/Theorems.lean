import Verif.Db.Spec
import Verif.Unicode.Theorems
import Verif.Cli.Theorems

/-! # Property theorems: opening a database (C55), its kind (C64), relative versions (C53) -/

namespace Verif.Db
open Verif Verif.Object Verif.Unicode Verif.Unicode.Spec Verif.Db.Spec

theorem byte_le32 (n k : Nat) : (UInt8.ofNat (n / k)).toNat = n / k % 256 := UInt8.toNat_ofNat'

theorem rd32_le32 (pre post : Bytes) (n : Nat) (hn : n < 2 ^ 32) (off : Nat) (ho : pre.length = off) :
    rd32 (pre ++ (le32 n ++ post)) off = .ok n := by
  subst ho
  unfold rd32
  have g : ∀ k, (pre ++ (le32 n ++ post))[pre.length + k]? = (le32 n ++ post)[k]? := by
    intro k
    rw [List.getElem?_append_right (by omega), Nat.add_sub_cancel_left]
  have g0 := g 0
  rw [Nat.add_zero] at g0
  rw [g0, g 1, g 2, g 3]
  show Outcome.ok ((UInt8.ofNat n).toNat + 256 * (UInt8.ofNat (n / 256)).toNat + 65536 * (UInt8.ofNat (n / 65536)).toNat
    + 16777216 * (UInt8.ofNat (n / 16777216)).toNat) = _
  rw [byte_le32, byte_le32, byte_le32, UInt8.toNat_ofNat']
  congr 1
  omega

theorem version_bytes (v : Ver) : version (versionBytes v) = some v := by cases v <;> rfl

theorem version_some (b : Bytes) (v : Ver) (h : version b = some v) : b = versionBytes v := by
  unfold version at h
  split at h
  all_goals first
    | (cases h; rfl)
    | cases h

theorem sigCon_length : sigCon.length = 8 := rfl

/-- **C55a.** Every consistent file is opened with its version, page size and number of pages, and
read-only exactly when it should be. -/
theorem open_consistent (file : Bytes) (v : Ver) (ps n : Nat) (h : Consistent file v ps n) (exclusive : Bool) :
    openHeader file exclusive = .ok ⟨v, decide (ReadOnly v exclusive), ps, n⟩ := by
  obtain ⟨hps, hlen, first, ih, rest, hf, hi, hn, hp, he⟩ := h
  have hv4 : (versionBytes v).length = 4 := by cases v <;> rfl
  have hl24 : ¬ file.length < 24 := by
    rw [he]
    simp only [List.length_append, hv4, le32, List.length_cons, List.length_nil]
    omega
  have h8 : file.take 8 = sigCon := by
    rw [he]; simp only [List.append_assoc]; exact List.take_left' rfl
  have h12 : (file.drop 8).take 4 = versionBytes v := by
    rw [he]; simp only [List.append_assoc]
    exact List.take_left' hv4
  have e12 : rd32 file 12 = .ok n := by
    have := rd32_le32 (sigCon ++ versionBytes v) (le32 first ++ (le32 ih ++ rest)) n hn 12
      (by rw [List.length_append, hv4]; rfl)
    rw [he]
    simp only [List.append_assoc] at this ⊢
    exact this
  have e20 : rd32 file 20 = .ok ih := by
    have := rd32_le32 (sigCon ++ versionBytes v ++ le32 n ++ le32 first) rest ih hi 20
      (by simp only [List.length_append, hv4, le32, sigCon, List.length_cons, List.length_nil])
    rw [he]
    simp only [List.append_assoc] at this ⊢
    exact this
  have hpg : filePageSize file v = .ok ps := by
    unfold filePageSize
    rw [hp, e20]
    unfold pageSize
    split <;> rfl
  have hq : file.length / ps % 2 ^ 32 = n := by
    rw [hlen, Nat.mul_div_cancel _ hps, Nat.mod_eq_of_lt hn]
  have hro : readonlyFor exclusive v = decide (ReadOnly v exclusive) := by
    cases v <;> cases exclusive <;> rfl
  unfold openHeader
  rw [if_neg hl24, if_neg (by rw [h8]; exact not_not_intro rfl), h12, version_bytes]
  simp only
  rw [hpg, Outcome.ok_bind, if_neg (by omega)]
  simp only [hq]
  rw [if_neg (not_not_intro hlen.symm), e12, Outcome.ok_bind, if_neg (not_not_intro rfl), hro]

theorem rd32_split (p : Bytes) (off n : Nat) (h : rd32 p off = .ok n) :
    n < 2 ^ 32 ∧ ∃ pre post, p = pre ++ (le32 n ++ post) ∧ pre.length = off := by
  unfold rd32 at h
  split at h
  · rename_i a b c d ha hb hc hd
    have hn := Outcome.ok.inj h
    have ha' := a.toNat_lt
    have hb' := b.toNat_lt
    have hc' := c.toNat_lt
    have hd' := d.toNat_lt
    obtain ⟨l1, e1⟩ := List.getElem?_eq_some_iff.1 ha
    obtain ⟨l2, e2⟩ := List.getElem?_eq_some_iff.1 hb
    obtain ⟨l3, e3⟩ := List.getElem?_eq_some_iff.1 hc
    obtain ⟨l4, e4⟩ := List.getElem?_eq_some_iff.1 hd
    refine ⟨by omega, p.take off, p.drop (off + 4), ?_, by rw [List.length_take]; omega⟩
    have hle : le32 n = [a, b, c, d] := by
      unfold le32
      have f : ∀ (x : UInt8) (m : Nat), m % 256 = x.toNat → UInt8.ofNat m = x := by
        intro x m hm
        apply UInt8.toNat_inj.1
        rw [UInt8.toNat_ofNat', hm]
      rw [f a n (by omega), f b (n / 256) (by omega), f c (n / 65536) (by omega), f d (n / 16777216) (by omega)]
    have hdrop : p.drop off = a :: b :: c :: d :: p.drop (off + 4) := by
      rw [List.drop_eq_getElem_cons l1, e1, List.drop_eq_getElem_cons l2, e2, List.drop_eq_getElem_cons l3, e3,
        List.drop_eq_getElem_cons l4, e4]
    rw [hle]
    conv => lhs; rw [← List.take_append_drop off p, hdrop]
    rfl
  · cases h

/-- **C55b.** Only consistent files are opened. -/
theorem open_only_consistent (file : Bytes) (exclusive : Bool) (h : Header) (ho : openHeader file exclusive = .ok h) :
    Consistent file h.ver h.pagesize h.length := by
  unfold openHeader at ho
  split at ho
  · cases ho
  rename_i hl
  split at ho
  · cases ho
  rename_i hsig
  have hsig : file.take 8 = sigCon := Classical.not_not.1 hsig
  cases hv : version ((file.drop 8).take 4) with
  | none => rw [hv] at ho; cases ho
  | some v =>
    rw [hv] at ho
    simp only at ho
    have hvb := version_some _ _ hv
    have hr : ∀ off, off + 4 ≤ file.length → ∃ x, rd32 file off = .ok x := by
      intro off hoff
      unfold rd32
      rw [List.getElem?_eq_getElem (by omega : off < _), List.getElem?_eq_getElem (by omega : off + 1 < _),
        List.getElem?_eq_getElem (by omega : off + 2 < _), List.getElem?_eq_getElem (by omega : off + 3 < _)]
      exact ⟨_, rfl⟩
    obtain ⟨n, hn⟩ := hr 12 (by omega)
    obtain ⟨first, hfi⟩ := hr 16 (by omega)
    obtain ⟨ih, hih⟩ := hr 20 (by omega)
    have hpg : filePageSize file v = .ok (pageSize v ih) := by
      unfold filePageSize; rw [hih]; unfold pageSize; split <;> rfl
    rw [hpg, Outcome.ok_bind] at ho
    split at ho
    · cases ho
    rename_i hz
    split at ho
    · cases ho
    rename_i hmul
    have hmul := Classical.not_not.1 hmul
    rw [hn, Outcome.ok_bind] at ho
    split at ho
    · cases ho
    rename_i hle
    have hle := Classical.not_not.1 hle
    cases ho
    simp only
    rw [hle] at hmul ⊢
    obtain ⟨ln, pre1, post1, s1, p1⟩ := rd32_split _ _ _ hn
    obtain ⟨lf, pre2, post2, s2, p2⟩ := rd32_split _ _ _ hfi
    obtain ⟨li, pre3, post3, s3, p3⟩ := rd32_split _ _ _ hih
    refine ⟨by omega, hmul.symm, first, ih, post3, lf, li, ln, rfl, ?_⟩
    have d12 : file.drop 12 = le32 n ++ file.drop 16 := by
      have : post1 = file.drop 16 := by
        rw [s1, ← List.append_assoc, List.drop_left' (by rw [List.length_append, p1]; rfl)]
      rw [← this, s1, List.drop_left' p1]
    have d16 : file.drop 16 = le32 first ++ file.drop 20 := by
      have : post2 = file.drop 20 := by
        rw [s2, ← List.append_assoc, List.drop_left' (by rw [List.length_append, p2]; rfl)]
      rw [← this, s2, List.drop_left' p2]
    have d20 : file.drop 20 = le32 ih ++ post3 := by
      rw [s3, List.drop_left' p3]
    have d8 : file.drop 8 = versionBytes v ++ file.drop 12 := by
      rw [← hvb]
      have := (List.take_append_drop 4 (file.drop 8)).symm
      rw [List.drop_drop] at this
      exact this
    have d0 : file = sigCon ++ file.drop 8 := by
      rw [← hsig]; exact (List.take_append_drop 8 file).symm
    rw [d0, d8, d12, d16, d20]
    simp only [List.append_assoc]
    rfl

example : ∃ file, Consistent file .v8_3_8 8192 3 :=
  ⟨[0x31, 0x43, 0x44, 0x42, 0x4d, 0x53, 0x56, 0x38] ++ versionBytes .v8_3_8 ++ le32 3 ++ le32 0 ++ le32 8192 ++
      List.replicate (3 * 8192 - 24) 0,
    by decide, by rw [List.length_append, List.length_replicate]; rfl,
    0, 8192, _, by decide, by decide, by decide, rfl, rfl⟩

/-- A file of fewer than 24 bytes: the header is used although it was not read. -/
theorem open_short_ub (file : Bytes) (exclusive : Bool) (h : file.length < 24) : openHeader file exclusive = .ub := by
  unfold openHeader
  rw [if_pos h]

/-- A page size of 0 in the header of a file of version 8.3.8: division by zero. -/
theorem open_zero_page_ub (file : Bytes) (exclusive : Bool) (hl : 24 ≤ file.length) (hs : file.take 8 = sigCon)
    (hv : (file.drop 8).take 4 = versionBytes .v8_3_8) (hz : rd32 file 20 = .ok 0) :
    openHeader file exclusive = .ub := by
  unfold openHeader
  rw [if_neg (by omega), if_neg (not_not_intro hs), hv]
  simp only [version_bytes, filePageSize, ↓reduceIte, hz, Outcome.ok_bind]

example : let f := sigCon ++ versionBytes .v8_3_8 ++ List.replicate 12 0
    24 ≤ f.length ∧ f.take 8 = sigCon ∧ (f.drop 8).take 4 = versionBytes .v8_3_8 ∧ rd32 f 20 = .ok 0 := by decide

/-! ## C64: the tables and the kind of the database -/

theorem readBlocks_le32 (pre : Bytes) (bs : List Nat) (hb : ∀ b ∈ bs, b < 2 ^ 32) (post : Bytes) (off : Nat)
    (ho : pre.length = off) : readBlocks (pre ++ (bs.flatMap le32 ++ post)) off bs.length = .ok bs := by
  induction bs generalizing pre off with
  | nil => rfl
  | cons b bs ih =>
    rw [List.flatMap_cons, List.append_assoc, List.length_cons, readBlocks,
      rd32_le32 pre _ b (hb b List.mem_cons_self) off ho, Outcome.ok_bind]
    have := ih (pre ++ le32 b) (fun x hx => hb x (List.mem_cons_of_mem _ hx)) (off + 4)
      (by rw [List.length_append, ho]; rfl)
    rw [List.append_assoc] at this
    rw [this]
    rfl

/-- **C64a.** A root object made of a language code, padded with zeros, the number of tables and their
blocks names exactly these tables in this order. -/
theorem root_tables (v : Ver) (lang : Bytes) (hlang : (0 : UInt8) ∉ lang) (hl : lang.length < langSize v)
    (bs : List Nat) (hn : bs.length < 2 ^ 31) (hb : ∀ b ∈ bs, b < 2 ^ 32) (rest : Bytes) :
    let data := lang ++ List.replicate (langSize v - lang.length) 0 ++ (le32 bs.length ++ (bs.flatMap le32 ++ rest))
    tableBlocks v data = .ok bs ∧ locale data = .ok lang := by
  intro data
  have hpl : (lang ++ List.replicate (langSize v - lang.length) (0 : UInt8)).length = langSize v := by
    rw [List.length_append, List.length_replicate]; omega
  constructor
  · unfold tableBlocks
    rw [show data = lang ++ List.replicate (langSize v - lang.length) 0 ++ (le32 bs.length ++ (bs.flatMap le32 ++ rest))
      from rfl, rd32_le32 _ _ bs.length (by omega) _ hpl, Outcome.ok_bind, if_neg (by omega)]
    have := readBlocks_le32 (lang ++ List.replicate (langSize v - lang.length) 0 ++ le32 bs.length) bs hb rest
      (langSize v + 4) (by rw [List.length_append, hpl]; rfl)
    rw [List.append_assoc] at this
    exact this
  · unfold locale
    obtain ⟨k, hk⟩ : ∃ k, langSize v - lang.length = k + 1 := ⟨langSize v - lang.length - 1, by omega⟩
    have hd : data = lang ++ (0 :: (List.replicate k 0 ++ (le32 bs.length ++ (bs.flatMap le32 ++ rest)))) := by
      show lang ++ List.replicate _ 0 ++ _ = _
      rw [hk, List.replicate_succ, List.append_assoc]; rfl
    rw [if_pos (by rw [hd]; simp), hd,
      takeWhile_append_all _ lang _ (by intro x hx; simp; rintro rfl; exact hlang hx), List.takeWhile_cons_of_neg (by simp),
      List.append_nil]

example : tableBlocks .v8_2_14 ([0x72, 0x75] ++ List.replicate 30 0 ++ (le32 2 ++ (le32 5 ++ le32 9))) = .ok [5, 9] := by
  decide

/-- A root object that claims more tables than it has room for is read past its end. -/
theorem root_overrun_ub : tableBlocks .v8_2_14 ([0x72, 0x75] ++ List.replicate 30 0 ++ (le32 3 ++ (le32 5 ++ le32 9))) = .ub := by
  decide

/-- A text without NUL. -/
def Spec.Text (w : List Nat) : Prop := ∀ c ∈ w, Scalar c ∧ c ≠ 0

theorem present_iff (names : List (List Nat)) (hn : ∀ w ∈ names, Spec.Text w) (t : String)
    (ht : utf8Text (t.toList.map Char.toNat) = Cli.asc t) (hs : Spec.Text (t.toList.map Char.toNat)) :
    ∃ b, present (names.map utf8Text) (Cli.asc t) = .ok b ∧ (b = true ↔ Has names t) := by
  induction names with
  | nil => exact ⟨false, rfl, by simp [Has]⟩
  | cons w r ih =>
    obtain ⟨c, h1, h2⟩ := ih (fun v hv => hn v (List.mem_cons_of_mem _ hv))
    obtain ⟨e1, e2⟩ := equalIC_iff w (t.toList.map Char.toNat) (hn w List.mem_cons_self) hs
    rw [ht] at e1 e2
    rw [List.map_cons, present]
    by_cases hst : SameText w (t.toList.map Char.toNat)
    · rw [e1.2 hst, Outcome.ok_bind, h1, Outcome.ok_bind]
      exact ⟨_, rfl, by simpa using ⟨w, List.mem_cons_self, hst⟩⟩
    · rw [e2.2 hst, Outcome.ok_bind, h1, Outcome.ok_bind]
      refine ⟨_, rfl, ?_⟩
      rw [Bool.false_or, h2]
      unfold Has
      constructor
      · rintro ⟨v, hv, h⟩; exact ⟨v, List.mem_cons_of_mem _ hv, h⟩
      · rintro ⟨v, hv, h⟩
        rcases List.mem_cons.1 hv with rfl | hv
        · exact absurd h hst
        · exact ⟨v, hv, h⟩

theorem presentAll_iff (names : List (List Nat)) (hn : ∀ w ∈ names, Spec.Text w) (ts : List String)
    (ht : ∀ t ∈ ts, utf8Text (t.toList.map Char.toNat) = Cli.asc t ∧ Spec.Text (t.toList.map Char.toNat)) :
    ∃ bs, presentAll (names.map utf8Text) (ts.map Cli.asc) = .ok bs ∧ (bs.any id = true ↔ ∃ t ∈ ts, Has names t) ∧
      (bs.all id = true ↔ ∀ t ∈ ts, Has names t) := by
  induction ts with
  | nil => exact ⟨[], rfl, by simp, by simp⟩
  | cons t ts ih =>
    obtain ⟨bs, h1, h2, h3⟩ := ih (fun x hx => ht x (List.mem_cons_of_mem _ hx))
    obtain ⟨b, h4, h5⟩ := present_iff names hn t (ht t List.mem_cons_self).1 (ht t List.mem_cons_self).2
    refine ⟨b :: bs, ?_, ?_, ?_⟩
    · rw [List.map_cons, presentAll, h4, Outcome.ok_bind, h1]; rfl
    · rw [List.any_cons, Bool.or_eq_true, h2, id, h5]; simp
    · rw [List.all_cons, Bool.and_eq_true, h3, id, h5]; simp

/-- **C64b.** A database with any table of an information base must have all of them and is one; otherwise
one with any table of a depot must have all of those and is one; everything else is neither. -/
theorem classify_iff (names : List (List Nat)) (hn : ∀ w ∈ names, Spec.Text w) :
    ((∃ t ∈ infobase, Has names t) → (∀ t ∈ infobase, Has names t) → classify (names.map utf8Text) = .ok .infobase) ∧
    ((∃ t ∈ infobase, Has names t) → (∃ t ∈ infobase, ¬ Has names t) → classify (names.map utf8Text) = .throw) ∧
    ((∀ t ∈ infobase, ¬ Has names t) → (∀ t ∈ Spec.depot, Has names t) → classify (names.map utf8Text) = .ok .depot) ∧
    ((∀ t ∈ infobase, ¬ Has names t) → (∃ t ∈ Spec.depot, Has names t) → (∃ t ∈ Spec.depot, ¬ Has names t) →
      classify (names.map utf8Text) = .throw) ∧
    ((∀ t ∈ infobase, ¬ Has names t) → (∀ t ∈ Spec.depot, ¬ Has names t) → classify (names.map utf8Text) = .ok .other) := by
  obtain ⟨is, hi, hia, hil⟩ := presentAll_iff names hn infobase (by unfold Spec.Text; decide)
  obtain ⟨ds, hd, hda, hdl⟩ := presentAll_iff names hn Spec.depot (by unfold Spec.Text; decide)
  have e1 : infobaseTables = infobase.map Cli.asc := rfl
  have e2 : depotTables = Spec.depot.map Cli.asc := rfl
  have hc : classify (names.map utf8Text) = (if is.any id then (if is.all id then .ok .infobase else .throw)
      else if ds.any id then (if ds.all id then .ok .depot else .throw) else .ok .other) := by
    unfold classify
    rw [e1, e2, hi, Outcome.ok_bind, hd, Outcome.ok_bind]
  rw [hc]
  refine ⟨fun h1 h2 => ?_, fun h1 h2 => ?_, fun h1 h2 => ?_, fun h1 h2 h3 => ?_, fun h1 h2 => ?_⟩
  · rw [if_pos (hia.2 h1), if_pos (hil.2 h2)]
  · obtain ⟨t, ht, hnt⟩ := h2
    rw [if_pos (hia.2 h1), if_neg (fun e => hnt (hil.1 e t ht))]
  · rw [if_neg (fun e => by obtain ⟨t, ht, hh⟩ := hia.1 e; exact h1 t ht hh),
      if_pos (hda.2 ⟨"DEPOT", by decide, h2 _ (by decide)⟩), if_pos (hdl.2 h2)]
  · obtain ⟨t, ht, hnt⟩ := h3
    rw [if_neg (fun e => by obtain ⟨t, ht, hh⟩ := hia.1 e; exact h1 t ht hh), if_pos (hda.2 h2),
      if_neg (fun e => hnt (hdl.1 e t ht))]
  · rw [if_neg (fun e => by obtain ⟨t, ht, hh⟩ := hia.1 e; exact h1 t ht hh),
      if_neg (fun e => by obtain ⟨t, ht, hh⟩ := hda.1 e; exact h2 t ht hh)]

example : classify [Cli.asc "Config", Cli.asc "ConfigSave", Cli.asc "Params", Cli.asc "Files", Cli.asc "DBSchema", Cli.asc "_Ref1"]
    = .ok .infobase ∧ classify [Cli.asc "Config", Cli.asc "Params"] = .throw := by decide +kernel

/-! ## C53: relative versions -/

open Cli.Spec in
/-- **C53a.** A positive version is itself; 0 is the last version of the table and -k the k-th before
it. -/
theorem version_relative (vers : List (List Nat)) (hd : ∀ ds ∈ vers, ds ≠ [] ∧ (∀ d ∈ ds, d < 10) ∧ value ds < 2 ^ 31) :
    (∀ n : Int, 0 < n → verDepot (vers.map digits) n = .ok n) ∧
    (∀ (newer : List (List Nat)) (ds : List Nat) (older : List (List Nat)), vers = older ++ ds :: newer →
      newer.length < 2 ^ 31 → verDepot (vers.map digits) (-(newer.length : Int)) = .ok (value ds)) ∧
    (∀ k : Nat, vers.length ≤ k → k < 2 ^ 31 → verDepot (vers.map digits) (-(k : Int)) = .throw) := by
  refine ⟨fun n hn => ?_, fun newer ds older he hl => ?_, fun k hk hl => ?_⟩
  · unfold verDepot; rw [if_pos hn]
  · unfold verDepot
    have hlen : (vers.map digits).length = older.length + 1 + newer.length := by
      rw [he]; simp; omega
    rw [if_neg (by omega), if_neg (by omega), if_neg (by rw [hlen]; omega)]
    have hidx : (((vers.map digits).length : Int) + -(newer.length : Int) - 1).toNat = older.length := by
      rw [hlen]; omega
    have hget : (vers.map digits)[older.length]? = some (digits ds) := by
      rw [he, List.map_append, List.map_cons, List.getElem?_append_right (by simp)]
      simp
    rw [hidx, hget]
    simp only
    obtain ⟨h1, h2, h3⟩ := hd ds (by rw [he]; simp)
    have := Cli.readInt_number false ds h1 h2 [] (by simp)
    simp only [Bool.false_eq_true, ↓reduceIte, List.nil_append, List.append_nil] at this
    unfold Cli.stoi
    rw [this]
    exact if_pos (Cli.fits_number false _ h3)
  · unfold verDepot
    rw [if_neg (by omega), if_neg (by omega), if_pos (by rw [List.length_map]; omega)]

example : verDepot [Cli.asc "1", Cli.asc "2", Cli.asc "5"] 0 = .ok 5 ∧ verDepot [Cli.asc "1", Cli.asc "2", Cli.asc "5"] (-1) = .ok 2 ∧
    verDepot [Cli.asc "1", Cli.asc "2", Cli.asc "5"] (-3) = .throw := by decide

open Cli.Spec in
/-- **C53b.** When the index lists the versions in ascending order, version 0 is the greatest one. -/
theorem version_zero_newest (vers : List (List Nat)) (hne : vers ≠ [])
    (hd : ∀ ds ∈ vers, ds ≠ [] ∧ (∀ d ∈ ds, d < 10) ∧ value ds < 2 ^ 31)
    (hs : vers.Pairwise (fun a b => value a < value b)) :
    ∃ ds ∈ vers, verDepot (vers.map digits) 0 = .ok (value ds) ∧ ∀ es ∈ vers, value es ≤ value ds := by
  refine ⟨vers.getLast hne, List.getLast_mem hne, ?_, fun es hes => ?_⟩
  · exact (version_relative vers hd).2.1 [] (vers.getLast hne) vers.dropLast (List.dropLast_concat_getLast hne).symm (by simp)
  · rw [← List.dropLast_concat_getLast hne] at hes hs
    rcases List.mem_append.1 hes with h | h
    · exact Nat.le_of_lt ((List.pairwise_append.1 hs).2.2 es h _ List.mem_cons_self)
    · rw [List.mem_singleton.1 h]; exact Nat.le_refl _

/-- A positive version is not looked up: it is returned although there is no such version. -/
theorem version_positive_unchecked : verDepot [Cli.asc "1", Cli.asc "2"] 7 = .ok 7 := by decide

/-- The least 32-bit number cannot be negated. -/
theorem version_min_ub (vers : List Bytes) : verDepot vers (-2147483648) = .ub := rfl

end Verif.Db
