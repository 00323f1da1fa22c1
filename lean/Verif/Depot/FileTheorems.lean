import Verif.Depot.FileLemmas
import Verif.Field.Lemmas

/-! # Theorems: the file a version of a depot is saved into (C90) -/

namespace Verif.Depot.File.Theorems
open Verif Verif.Container Verif.Container.Spec Verif.Unicode Verif.Unicode.Spec Verif.Depot.File Verif.Depot.File.Spec
open Verif.Config.Whole.Spec (codes SameName)

/-! ## Lemmas -/

theorem letter_symm {a b : Nat} (h : SameLetter a b) : SameLetter b a := by
  unfold SameLetter at *
  grind

theorem same_eq {a b : Str} (h : a = b) : SameName a b := by
  subst h
  unfold SameName
  induction codes a with
  | nil => trivial
  | cons x l ih => exact ⟨by unfold SameLetter; grind, ih⟩

theorem same_symm {a b : Str} (h : SameName a b) : SameName b a := by
  unfold SameName at *
  generalize codes a = x at *
  generalize codes b = y at *
  induction x generalizing y with
  | nil => cases y with
    | nil => trivial
    | cons => exact absurd h (by simp [SameText])
  | cons c x ih => cases y with
    | nil => exact absurd h (by simp [SameText])
    | cons d y => exact ⟨letter_symm h.1, ih y h.2⟩

theorem fixed_apart : ∀ a ∈ fixed, ∀ b ∈ fixed, SameName a b → a = b := by
  unfold SameName
  decide +kernel

theorem fixed_names : "version".toList ∈ fixed ∧ "root".toList ∈ fixed ∧ "versions".toList ∈ fixed := by decide

theorem fixed_plain : ∀ a ∈ fixed, a ≠ [] ∧ ∀ c ∈ a, c.toNat ≠ 0 := by decide

/-- The parts of the version are what the loop puts out. -/
theorem part_iff {j : Job} {out : List (Hist × List Ext)} (h2 : ∀ r, r ∈ out.map (·.1) ↔ Depot.Spec.Newest j.ver j.hist r)
    (h3 : ∀ x ∈ out, ∀ e, e ∈ x.2 ↔ Depot.Spec.Belongs j.fold j.ver j.exts x.1 e) (a : Str) (v b : Bytes) :
    (a, v, b) ∈ out.flatMap (itemsOf j) ↔ Part j a v b := by
  constructor
  · intro h
    obtain ⟨x, hx, h⟩ := List.mem_flatMap.1 h
    have hn := (h2 x.1).1 (List.mem_map_of_mem hx)
    rcases List.mem_cons.1 h with h | h
    · cases h
      exact .object hn
    · obtain ⟨e, he, h⟩ := List.mem_map.1 h
      cases h
      exact .external hn ((h3 x hx e).1 he)
  · intro h
    cases h with
    | object hn =>
      obtain ⟨x, hx, rfl⟩ := List.mem_map.1 ((h2 _).2 hn)
      exact List.mem_flatMap.2 ⟨x, hx, by simp [itemsOf]⟩
    | external hn hb =>
      obtain ⟨x, hx, rfl⟩ := List.mem_map.1 ((h2 _).2 hn)
      exact List.mem_flatMap.2 ⟨x, hx, List.mem_cons.2 (Or.inr (List.mem_map_of_mem ((h3 x hx _).2 hb)))⟩

theorem mem_versOf {l : List (Str × Bytes × Bytes)} {p : Str × Str} : p ∈ versOf l ↔ ∃ v b, (p.1, v, b) ∈ l ∧ p.2 = Guid.asMS v := by
  unfold versOf
  rw [List.mem_map]
  constructor
  · rintro ⟨⟨a, v, b⟩, h, rfl⟩
    exact ⟨v, b, h, rfl⟩
  · rintro ⟨v, b, h, e⟩
    exact ⟨_, h, Prod.ext rfl e.symm⟩

theorem mem_filesOf {l : List (Str × Bytes × Bytes)} {p : Str × Bytes} : p ∈ filesOf l ↔ ∃ v, (p.1, v, p.2) ∈ l := by
  unfold filesOf
  rw [List.mem_map]
  constructor
  · rintro ⟨⟨a, v, b⟩, h, rfl⟩
    exact ⟨v, h⟩
  · rintro ⟨v, h⟩
    exact ⟨_, h, rfl⟩

/-- What an entry of `versions` is. -/
theorem listed_cases {j : Job} {p : Str × Str} (h : Listed j p) :
    (∃ v b, Part j p.1 v b ∧ p.2 = Guid.asMS v) ∨ (p.1 = [] ∧ p.2 = Guid.asMS (j.S.gen 0)) ∨
      (p.1 = "version".toList ∧ p.2 = Guid.asMS (j.S.gen 1)) ∨ (p.1 = "versions".toList ∧ p.2 = Guid.asMS (j.S.gen 2)) ∨
      (p.1 = "root".toList ∧ p.2 = Guid.asMS (j.S.gen 3)) := by
  cases h with
  | part h => exact Or.inl ⟨_, _, h, rfl⟩
  | whole => exact Or.inr (Or.inl ⟨rfl, rfl⟩)
  | version => exact Or.inr (Or.inr (Or.inl ⟨rfl, rfl⟩))
  | versions => exact Or.inr (Or.inr (Or.inr (Or.inl ⟨rfl, rfl⟩)))
  | root => exact Or.inr (Or.inr (Or.inr (Or.inr ⟨rfl, rfl⟩)))

/-- A name says which entry of `versions` it is. -/
theorem listed_inj {j : Job} (ha : Apart j) : ∀ p q, Listed j p → Listed j q → p.1 = q.1 → p = q := by
  intro p q hp hq e
  refine Prod.ext e ?_
  have np : ∀ (p : Str × Str) v b, Part j p.1 v b → p.1 ≠ [] ∧ p.1 ≠ "version".toList ∧ p.1 ≠ "versions".toList ∧ p.1 ≠ "root".toList := by
    intro p v b h
    obtain ⟨h1, _, h3, _⟩ := ha _ _ _ h
    exact ⟨h1, fun e => h3 _ (by decide) (same_eq e), fun e => h3 _ (by decide) (same_eq e), fun e => h3 _ (by decide) (same_eq e)⟩
  have d1 : ("version".toList : Str) ≠ [] := by decide
  have d2 : ("versions".toList : Str) ≠ [] := by decide
  have d3 : ("root".toList : Str) ≠ [] := by decide
  have d4 : "version".toList ≠ "versions".toList := by decide
  have d5 : "version".toList ≠ "root".toList := by decide
  have d6 : "versions".toList ≠ "root".toList := by decide
  rcases listed_cases hp with ⟨v, b, h1, h2⟩ | ⟨h1, h2⟩ | ⟨h1, h2⟩ | ⟨h1, h2⟩ | ⟨h1, h2⟩
  · have n1 := np p v b h1
    rcases listed_cases hq with ⟨w, c, h3, h4⟩ | ⟨h3, h4⟩ | ⟨h3, h4⟩ | ⟨h3, h4⟩ | ⟨h3, h4⟩
    · obtain ⟨_, rfl, _⟩ := (ha _ _ _ h1).2.2.2 _ _ _ h3 (same_eq e)
      rw [h2, h4]
    · exact absurd (e.trans h3) n1.1
    · exact absurd (e.trans h3) n1.2.1
    · exact absurd (e.trans h3) n1.2.2.1
    · exact absurd (e.trans h3) n1.2.2.2
  all_goals
    rcases listed_cases hq with ⟨w, c, h3, h4⟩ | ⟨h3, h4⟩ | ⟨h3, h4⟩ | ⟨h3, h4⟩ | ⟨h3, h4⟩
    · have n1 := np q w c h3
      have := e.symm.trans h1
      first | exact absurd this n1.1 | exact absurd this n1.2.1 | exact absurd this n1.2.2.1 | exact absurd this n1.2.2.2
    all_goals
      first
        | exact h2.trans h4.symm
        | (have h5 := h1.symm.trans (e.trans h3)
           first
            | exact absurd h5 d1 | exact absurd h5 d2 | exact absurd h5 d3 | exact absurd h5 d4 | exact absurd h5 d5 | exact absurd h5 d6
            | exact absurd h5.symm d1 | exact absurd h5.symm d2 | exact absurd h5.symm d3 | exact absurd h5.symm d4 | exact absurd h5.symm d5 | exact absurd h5.symm d6)

/-- A file that is no part is a fixed one. -/
theorem holds_cases {j : Job} {major minor : Nat} {rootobj : Bytes} {l : List (Str × Str)} {p : Str × Bytes} (h : Holds j major minor rootobj l p) :
    (∃ v, Part j p.1 v p.2) ∨ (p.1 ∈ fixed ∧ p = ("version".toList, packedText j.S (versionTree major minor)) ∨
      p.1 ∈ fixed ∧ p = ("root".toList, packedText j.S (rootTree rootobj)) ∨
      p.1 ∈ fixed ∧ p = ("versions".toList, packedText j.S (versionsTree l))) := by
  cases h with
  | part h => exact Or.inl ⟨_, h⟩
  | version => exact Or.inr (Or.inl ⟨fixed_names.1, rfl⟩)
  | root => exact Or.inr (Or.inr (Or.inl ⟨fixed_names.2.1, rfl⟩))
  | versions => exact Or.inr (Or.inr (Or.inr ⟨fixed_names.2.2, rfl⟩))

/-- A name, in any case, says which file it is. -/
theorem holds_inj {j : Job} (ha : Apart j) {major minor : Nat} {rootobj : Bytes} {l : List (Str × Str)} :
    ∀ p q, Holds j major minor rootobj l p → Holds j major minor rootobj l q → SameName p.1 q.1 → p = q := by
  intro p q hp hq e
  have hfix : ∀ p q, p.1 ∈ fixed → q.1 ∈ fixed → Holds j major minor rootobj l p → Holds j major minor rootobj l q → SameName p.1 q.1 → p = q := by
    intro p q hp hq h1 h2 e
    have e := fixed_apart _ hp _ hq e
    have d4 : "version".toList ≠ "versions".toList := by decide
    have d5 : "version".toList ≠ "root".toList := by decide
    have d6 : "versions".toList ≠ "root".toList := by decide
    have np : ∀ p : Str × Bytes, p.1 ∈ fixed → ¬ ∃ v, Part j p.1 v p.2 := fun p hp ⟨v, h⟩ => (ha _ _ _ h).2.2.1 _ hp (same_eq rfl)
    rcases holds_cases h1 with h1 | ⟨_, rfl⟩ | ⟨_, rfl⟩ | ⟨_, rfl⟩
    · exact absurd h1 (np p hp)
    all_goals
      rcases holds_cases h2 with h2 | ⟨_, rfl⟩ | ⟨_, rfl⟩ | ⟨_, rfl⟩
      · exact absurd h2 (np q hq)
      all_goals first | rfl | exact absurd e d4 | exact absurd e d5 | exact absurd e d6 | exact absurd e.symm d4 | exact absurd e.symm d5 | exact absurd e.symm d6
  have hmem : ∀ p : Str × Bytes, Holds j major minor rootobj l p → (∃ v, Part j p.1 v p.2) ∨ p.1 ∈ fixed := by
    intro p h
    rcases holds_cases h with h | ⟨h, _⟩ | ⟨h, _⟩ | ⟨h, _⟩
    · exact Or.inl h
    all_goals exact Or.inr h
  rcases hmem p hp with ⟨v, h1⟩ | h1
  · obtain ⟨_, _, h3, h4⟩ := ha _ _ _ h1
    rcases hmem q hq with ⟨w, h2⟩ | h2
    · obtain ⟨e1, _, e2⟩ := h4 _ _ _ h2 e
      exact Prod.ext e1 e2
    · exact absurd e (h3 _ h2)
  · rcases hmem q hq with ⟨w, h2⟩ | h2
    · exact absurd (same_symm e) ((ha _ _ _ h2).2.2.1 _ h1)
    · exact hfix p q h1 h2 hp hq e

/-- A sorted list has each of its elements once. -/
theorem sorted_unique {α : Type} : ∀ (l m : List (Str × α)), Sorted l → Sorted m → (∀ p, p ∈ l ↔ p ∈ m) → l = m := by
  intro l m hl hm h
  have anti : ∀ p q : Str × α, codes p.1 < codes q.1 → codes q.1 < codes p.1 → False := fun p q h1 h2 => List.lt_irrefl _ (List.lt_trans h1 h2)
  have nd : ∀ l : List (Str × α), Sorted l → l.Nodup := fun l hl => hl.imp (fun h e => by subst e; exact List.lt_irrefl _ h)
  exact List.Perm.eq_of_pairwise (fun a b _ _ h1 h2 => absurd h2 (fun h2 => anti _ _ h1 h2)) hl hm ((List.perm_ext_iff_of_nodup (nd l hl) (nd m hm)).2 h)

theorem plain_maker : plainMaker = maker2 := by decide

/-- The text of the maker. -/
theorem plain_maker_text : Guid.asMS plainMaker = "6fdfdf78-062a-46bb-8402-62145ae55764".toList := by decide +kernel

/-- A snapshot is used exactly when it is there, and in order. -/
theorem snapshot_iff (C : Cache) (rootobj : Bytes) (v : Int) (r : Row) (h1 : rootobj.length = 16) (h2 : r.maker.length = 16) (b : Bytes) :
    snapshot C rootobj v r = (some b, true) ↔ Snapshot C rootobj v r b := by
  have hv : verbatim rootobj r.maker = true ↔ r.maker = maker2 ∧ rootobj ≠ maker2 := by
    unfold verbatim
    simp only [Bool.or_eq_true, Guid.eq_iff _ _ h1 h2, Guid.eq_iff _ _ h2 (show maker1.length = 16 from rfl)]
    split
    · rename_i h
      simp only [Bool.false_eq_true, false_iff, not_and]
      intro e e2
      rcases h with h | h
      · exact e2 (h.trans e)
      · rw [h] at e
        revert e
        decide
    · rename_i h
      rw [Guid.eq_iff _ _ h2 (show maker2.length = 16 from rfl)]
      exact ⟨fun e => ⟨e, fun e2 => h (Or.inl (e2.trans e.symm))⟩, fun e => e.1⟩
  unfold snapshot Snapshot Unpacked
  rw [plain_maker]
  split
  · rename_i he
    rw [Guid.isEmpty_iff _ h2] at he
    constructor
    · intro h
      cases h
    · rintro ⟨h, _⟩
      exact absurd he h
  · rename_i he
    rw [Guid.isEmpty_iff _ h2] at he
    split
    · rename_i hn
      rw [hn]
      constructor
      · intro h
        cases h
      · rintro ⟨_, s, h, _⟩
        cases h
    · rename_i s hs
      split
      · rename_i hvb
        rw [hv] at hvb
        rw [hs]
        simp only [hvb, ne_eq, not_false_eq_true, and_self, if_true, Prod.mk.injEq, Option.some.injEq, decide_eq_true_eq]
        constructor
        · rintro ⟨rfl, h⟩
          exact ⟨he ∘ (hvb.1.trans ·), s, rfl, rfl, h⟩
        · rintro ⟨_, s', rfl, rfl, h⟩
          exact ⟨rfl, h⟩
      · rename_i hvb
        rw [hv] at hvb
        rw [hs]
        simp only [if_neg hvb]
        split
        · rename_i ht
          constructor
          · intro h
            cases h
          · rintro ⟨_, s', h, h3, _⟩
            cases h
            rw [h3] at ht
            cases ht
        · rename_i ht
          simp only [Prod.mk.injEq, Option.some.injEq, decide_eq_true_eq]
          constructor
          · rintro ⟨rfl, h⟩
            exact ⟨he, s, rfl, Prod.ext rfl (by simpa using ht), h⟩
          · rintro ⟨_, s', rfl, h3, h⟩
            rw [h3]
            exact ⟨rfl, h⟩

/-- Without a snapshot in order none is saved. -/
theorem snapshot_absent (C : Cache) (rootobj : Bytes) (v : Int) (r : Row) (hlen1 : rootobj.length = 16) (hlen2 : r.maker.length = 16)
    (hsnap : ¬ ∃ b, Snapshot C rootobj v r b) : (snapshot C rootobj v r).2 = false := by
  cases hx : (snapshot C rootobj v r).2 with
  | false => rfl
  | true =>
    exfalso
    refine hsnap ?_
    cases hy : (snapshot C rootobj v r).1 with
    | some b => exact ⟨b, (snapshot_iff C rootobj v r hlen1 hlen2 b).1 (Prod.ext hy hx)⟩
    | none =>
      unfold snapshot at hx hy
      split at hx
      · cases hx
      · rename_i hne
        rw [if_neg hne] at hy
        split at hx
        · cases hx
        · rename_i s hs
          rw [hs] at hy
          simp only at hy
          split at hy
          · cases hy
          · split at hy <;> cases hy

/-! ## C90 -/

/-- **C90 (partial).** Saving a version of a depot for which there is no snapshot, in a configuration not of the old format, whatever the file held
before: the file is then a container; its entries are, in the order of their names, the objects of the version with their external data,
and the files `root`, `version` and `versions`, and nothing else; every name, in any case, gives the contents, and no other name gives anything. The three
files are readable, and `versions` lists exactly the entries with the identifiers of their versions, in order, and the whole, under the empty name, with
their number. Not covered: empty contents; configurations of 2 gigabytes; the old format, which is in `saved_old_depot_partial`. -/
theorem saved_depot_partial (C : Cache) (fuel now : Nat) (hf : LAST ≤ fuel) (hnow : now < 2 ^ 64) (D : Depot) (asked : Int) (old : Option Bytes)
    (j : Job) (hh : D.hist = j.hist) (he : D.exts = j.exts) (f : Format) (rootobj : Bytes) (r : Row) (major minor : Nat)
    (hhead : header D asked = .ok (f, rootobj, j.ver, r)) (hlen1 : rootobj.length = 16) (hlen2 : r.maker.length = 16)
    (hsnap : ¬ ∃ b, Snapshot C rootobj j.ver r b)
    (hver : configVer f D.db r.cver = .ok (major, minor)) (hnew : 100 ≤ major)
    (hne : j.hist ≠ []) (ho : Depot.Spec.HistOrder j.hist) (heo : Depot.Spec.ExtOrder j.exts)
    (hread : Readable j) (hapart : Apart j) (hdef : ∀ b, j.S.deflate b ≠ [])
    (hroom : ∀ l fs, Sorted l → (∀ p, p ∈ l ↔ Listed j p) → Sorted fs → (∀ p, p ∈ fs ↔ Holds j major minor rootobj l p) → Spec.room fs < 2 ^ 31 - 1) :
    ∃ d k l fs, save j.S C j.fold fuel now D asked old = .ok (some d) ∧ openCatalog fuel d = .ok (some (.container k)) ∧
      Sorted l ∧ (∀ p, p ∈ l ↔ Listed j p) ∧ Sorted fs ∧ (∀ p, p ∈ fs ↔ Holds j major minor rootobj l p) ∧
      k.ents.length = fs.length ∧
      (∀ (i : Nat) (e : File) (p : Str × Bytes), k.ents[i]? = some e → fs[i]? = some p →
        ∃ z, e.name = utf8Text (codes p.1 ++ List.replicate z 0)) ∧
      (∀ p, Holds j major minor rootobj l p → ∀ n : Str, (∀ c ∈ n, c.toNat ≠ 0) → SameName p.1 n →
        content plainCodec fuel k (utf8Text (codes n)) = .ok (some (some p.2))) ∧
      (∀ n : Str, (∀ c ∈ n, c.toNat ≠ 0) → (∀ p, Holds j major minor rootobj l p → ¬ SameName p.1 n) →
        content plainCodec fuel k (utf8Text (codes n)) = .ok (some none)) ∧
      (∀ t ∈ [versionTree major minor, rootTree rootobj, versionsTree l], Tree.parseText (Tree.outtext (.list [t])) = .ok (.list [t])) := by
  obtain ⟨out, hout, _, h2, h3⟩ := Depot.Theorems.export_correct j.fold j.ver j.hist j.exts hne ho heo
  have hpart := part_iff (j := j) h2 h3
  have hdata : ∀ x ∈ out, j.S.objData false x.1 = .ok (some (j.objData x.1)) ∧ ∀ e ∈ x.2, j.S.extData e = .ok (some (j.extData e)) := by
    intro x hx
    have hn := (h2 x.1).1 (List.mem_map_of_mem hx)
    exact ⟨(hread.1 _ hn).1, fun e he => (hread.2 _ _ hn ((h3 x hx e).1 he)).1⟩
  obtain ⟨m, hm, hv, hfl⟩ := maps_ok j major minor hnew rootobj out hdata
  have hl : ∀ p, p ∈ m.vers ↔ Listed j p := by
    have key : ∀ p, p ∈ [([], Guid.asMS (j.S.gen 0)), ("version".toList, Guid.asMS (j.S.gen 1))] ++ versOf (out.flatMap (itemsOf j)) ++
        [("versions".toList, Guid.asMS (j.S.gen 2)), ("root".toList, Guid.asMS (j.S.gen 3))] ↔ Listed j p := by
      intro p
      simp only [List.mem_append, List.mem_cons, List.not_mem_nil, or_false, mem_versOf, hpart]
      constructor
      · rintro (((rfl | rfl) | ⟨v, b, h, e⟩) | (rfl | rfl))
        · exact .whole
        · exact .version
        · have := Listed.part h
          rw [← e] at this
          exact this
        · exact .versions
        · exact .root
      · intro h
        cases h with
        | whole => simp
        | version => simp
        | versions => simp
        | root => simp
        | part h => exact Or.inl (Or.inr ⟨_, _, h, rfl⟩)
    intro p
    rw [hv, mem_puts_nil _ (fun p hp q hq => listed_inj hapart p q ((key p).1 hp) ((key q).1 hq)), key]
  have hfs : ∀ p, p ∈ m.files ↔ Holds j major minor rootobj m.vers p := by
    have key : ∀ p, p ∈ [("version".toList, packedText j.S (versionTree major minor))] ++ filesOf (out.flatMap (itemsOf j)) ++
        [("root".toList, packedText j.S (rootTree rootobj)), ("versions".toList, packedText j.S (versionsTree m.vers))] ↔
        Holds j major minor rootobj m.vers p := by
      intro p
      simp only [List.mem_append, List.mem_cons, List.not_mem_nil, or_false, mem_filesOf, hpart]
      constructor
      · rintro ((rfl | ⟨v, h⟩) | (rfl | rfl))
        · exact .version
        · exact .part h
        · exact .root
        · exact .versions
      · intro h
        cases h with
        | version => simp
        | versions => simp
        | root => simp
        | part h => exact Or.inl (Or.inr ⟨_, h⟩)
    intro p
    rw [hfl, mem_puts_nil _ (fun p hp q hq e => holds_inj hapart p q ((key p).1 hp) ((key q).1 hq) (same_eq e)), key]
  have hsl : Sorted m.vers := by rw [hv]; exact puts_sorted (by simp [Sorted]) _
  have hsf : Sorted m.files := by rw [hfl]; exact puts_sorted (by simp [Sorted]) _
  have hplain : ∀ p ∈ m.files, p.2 ≠ [] ∧ ∀ c ∈ p.1, c.toNat ≠ 0 := by
    intro p hp
    have hp := (hfs p).1 hp
    cases hp with
    | part h =>
      refine ⟨?_, (hapart _ _ _ h).2.1⟩
      cases h with
      | object hn => exact (hread.1 _ hn).2
      | external hn hb => exact (hread.2 _ _ hn hb).2
    | version => exact ⟨hdef _, (fixed_plain _ fixed_names.1).2⟩
    | root => exact ⟨hdef _, (fixed_plain _ fixed_names.2.1).2⟩
    | versions => exact ⟨hdef _, (fixed_plain _ fixed_names.2.2).2⟩
  have hpw : m.files.Pairwise (fun p q => ¬ SameName p.1 q.1) := by
    refine List.Pairwise.imp_of_mem (fun {a b} ha hb hlt hsame => ?_) hsf
    have := holds_inj hapart a b ((hfs a).1 ha) ((hfs b).1 hb) hsame
    subst this
    exact List.lt_irrefl _ hlt
  have hroom' := hroom m.vers m.files hsl hl hsf hfs
  obtain ⟨d, k, hs, hopen, hlen, hnames, hcont, hno⟩ := storeFiles_ok fuel now hf hnow ((snapshot C rootobj j.ver r).1.or old) m.files hplain hpw hroom'
  refine ⟨d, k, m.vers, m.files, ?_, hopen, hsl, hl, hsf, hfs, hlen, hnames, ?_, ?_, ?_⟩
  · have hfalse := snapshot_absent C rootobj j.ver r hlen1 hlen2 hsnap
    unfold save
    rw [hhead, Outcome.ok_bind]
    simp only
    rw [hfalse, if_neg (by decide), hver, Outcome.ok_bind, hh, he, hout, Outcome.ok_bind]
    simp only
    rw [hm, Outcome.ok_bind, if_neg (by omega)]
    exact hs
  · intro p hp n hn hsame
    exact hcont p ((hfs p).2 hp) n hn hsame
  · intro n hn hnone
    exact hno n hn (fun p hp => hnone p ((hfs p).1 hp))
  · intro t ht
    simp only [List.mem_cons, List.not_mem_nil, or_false] at ht
    rcases ht with rfl | rfl | rfl
    · exact version_parses _ _
    · exact root_parses _
    · refine versions_parses _ (fun p hp => ?_)
      cases (hl p).1 hp with
      | whole => exact ⟨_, rfl⟩
      | version => exact ⟨_, rfl⟩
      | versions => exact ⟨_, rfl⟩
      | root => exact ⟨_, rfl⟩
      | part _ => exact ⟨_, rfl⟩

/-- **C90: snapshots.** If the snapshot of the version is there, can be unpacked and has the right checksum, it is what the file holds; the records of the objects
are not looked at. -/
theorem snapshot_saved (S : Source) (C : Cache) (fold : Bytes → Bytes) (fuel now : Nat) (D : Depot) (asked v : Int) (old : Option Bytes) (f : Format)
    (rootobj : Bytes) (r : Row) (hhead : header D asked = .ok (f, rootobj, v, r)) (hlen1 : rootobj.length = 16) (hlen2 : r.maker.length = 16)
    (b : Bytes) (h : Snapshot C rootobj v r b) : save S C fold fuel now D asked old = .ok (some b) := by
  unfold save
  rw [hhead, Outcome.ok_bind]
  simp only
  rw [(snapshot_iff C rootobj v r hlen1 hlen2 b).2 h]
  rfl

/-- The version asked for is that of the first record with its number, in a depot of a known format. -/
theorem header_iff (D : Depot) (asked : Int) (f : Format) (rootobj : Bytes) (v : Int) (r : Row) :
    header D asked = .ok (f, rootobj, v, r) ↔ ∃ dv, D.depot = some (dv, rootobj) ∧ depotFormat dv = .ok f ∧
      Db.verDepot D.vernums asked = .ok v ∧ ∃ before after, D.rows = before ++ r :: after ∧ Cli.toIntDef r.vernum 0 = .ok v ∧
        ∀ x ∈ before, ∃ n, Cli.toIntDef x.vernum 0 = .ok n ∧ n ≠ v := by
  have hrow : ∀ rows : List Row, findRow v rows = .ok r ↔ ∃ before after, rows = before ++ r :: after ∧ Cli.toIntDef r.vernum 0 = .ok v ∧
      ∀ x ∈ before, ∃ n, Cli.toIntDef x.vernum 0 = .ok n ∧ n ≠ v := by
    intro rows
    induction rows with
    | nil =>
      refine ⟨fun h => (by cases h), ?_⟩
      rintro ⟨b, a, h, _⟩
      simp at h
    | cons x rows ih =>
      unfold findRow
      constructor
      · intro h
        obtain ⟨n, hn, h⟩ := bind_ok h
        split at h
        · rename_i e
          cases h
          exact ⟨[], rows, rfl, by rw [hn, e], by simp⟩
        · rename_i e
          obtain ⟨b, a, h1, h2, h3⟩ := ih.1 h
          refine ⟨x :: b, a, by rw [h1]; rfl, h2, fun y hy => ?_⟩
          rcases List.mem_cons.1 hy with rfl | hy
          · exact ⟨n, hn, e⟩
          · exact h3 y hy
      · rintro ⟨b, a, h1, h2, h3⟩
        cases b with
        | nil =>
          cases h1
          rw [h2, Outcome.ok_bind, if_pos rfl]
        | cons y b =>
          cases h1
          obtain ⟨n, hn, e⟩ := h3 x (by simp)
          rw [hn, Outcome.ok_bind, if_neg e]
          exact ih.2 ⟨b, a, rfl, h2, fun z hz => h3 z (by simp [hz])⟩
  unfold header
  constructor
  · intro h
    split at h
    · cases h
    · rename_i dv ro hd
      obtain ⟨f', hf, h⟩ := bind_ok h
      obtain ⟨v', hv, h⟩ := bind_ok h
      obtain ⟨r', hr, h⟩ := bind_ok h
      cases h
      exact ⟨dv, hd, hf, hv, (hrow D.rows).1 hr⟩
  · rintro ⟨dv, hd, hf, hv, hr⟩
    rw [hd]
    simp only
    rw [hf, Outcome.ok_bind, hv, Outcome.ok_bind, (hrow D.rows).2 hr, Outcome.ok_bind]

/-- The objects cannot be put into the maps when the contents of one are missing. -/
theorem addObjects_throw (S : Source) (old : Bool) (out : List (Hist × List Ext)) : ∀ m : Maps,
    (∀ x ∈ out, (∃ b, S.objData old x.1 = .ok b) ∧ ∀ e ∈ x.2, ∃ b, S.extData e = .ok b) →
    (∃ x ∈ out, S.objData old x.1 = .ok none ∨ ∃ e ∈ x.2, S.extData e = .ok none) → addObjects S old out m = .throw := by
  have hext : ∀ (es : List Ext) (m : Maps), (∀ e ∈ es, ∃ b, S.extData e = .ok b) →
      (addExts S es m = .throw ∨ ((∀ e ∈ es, S.extData e ≠ .ok none) ∧ ∃ m', addExts S es m = .ok m')) := by
    intro es
    induction es with
    | nil => intro m _; exact Or.inr ⟨by simp, m, rfl⟩
    | cons e es ih =>
      intro m h
      obtain ⟨b, hb⟩ := h e (by simp)
      rw [addExts, hb]
      cases b with
      | none => exact Or.inl rfl
      | some b =>
        rcases ih { m with vers := put m.vers (S.extName e) (Guid.asMS (S.extVer e)), files := put m.files (S.extName e) b }
          (fun e he => h e (by simp [he])) with h1 | ⟨h1, m', h2⟩
        · exact Or.inl h1
        · refine Or.inr ⟨fun y hy => ?_, m', h2⟩
          rcases List.mem_cons.1 hy with rfl | hy
          · rw [hb]; simp
          · exact h1 y hy
  induction out with
  | nil => intro m _ h; simp at h
  | cons x out ih =>
    intro m hall hbad
    obtain ⟨r, es⟩ := x
    obtain ⟨⟨b, hb⟩, he⟩ := hall (r, es) (by simp)
    rw [addObjects]
    unfold addObject
    rw [hb]
    cases b with
    | none => rfl
    | some b =>
      have hrest : ∀ m1, (addExts S es m1 >>= fun m => addObjects S old out m) = .throw := by
        intro m1
        rcases hext es m1 he with h1 | ⟨h1, m', h2⟩
        · rw [h1]; rfl
        · rw [h2, Outcome.ok_bind]
          refine ih m' (fun x hx => hall x (by simp [hx])) ?_
          obtain ⟨x, hx, hx2⟩ := hbad
          rcases List.mem_cons.1 hx with rfl | hx
          · rcases hx2 with hx2 | ⟨e, he1, he2⟩
            · rw [hb] at hx2; cases hx2
            · exact absurd he2 (h1 e he1)
          · exact ⟨x, hx, hx2⟩
      cases old
      · exact hrest _
      · exact hrest _

/-- **C90: what cannot be read.** When the contents of an object of the version, or of its external data, are missing, saving fails, in either format; and then the
file, whatever it held, is a container with nothing in it. -/
theorem missing_data (S : Source) (C : Cache) (fold : Bytes → Bytes) (fuel now : Nat) (D : Depot) (asked v : Int) (old : Option Bytes) (f : Format)
    (rootobj : Bytes) (r : Row) (major minor : Nat) (hhead : header D asked = .ok (f, rootobj, v, r)) (hlen1 : rootobj.length = 16)
    (hlen2 : r.maker.length = 16) (hsnap : ¬ ∃ b, Snapshot C rootobj v r b) (hver : configVer f D.db r.cver = .ok (major, minor))
    (ho : Depot.Spec.HistOrder D.hist) (heo : Depot.Spec.ExtOrder D.exts)
    (h1 : ∀ x, Depot.Spec.Newest v D.hist x → ∃ b, S.objData (decide (major < 100)) x = .ok b)
    (h2 : ∀ e ∈ D.exts, ∃ b, S.extData e = .ok b) (x : Hist) (hx : Depot.Spec.Newest v D.hist x)
    (hbad : S.objData (decide (major < 100)) x = .ok none ∨ ∃ e, Depot.Spec.Belongs fold v D.exts x e ∧ S.extData e = .ok none) :
    save S C fold fuel now D asked old = .throw ∧ ∃ d, left D asked old = some d ∧ d ≠ [] ∧
      ∃ k, openCatalog fuel d = .ok (some (.container k)) ∧ k.ents = [] := by
  have hne : D.hist ≠ [] := by
    obtain ⟨b, a, h, _⟩ := hx
    rw [h]; simp
  obtain ⟨out, hout, _, h3, h4⟩ := Depot.Theorems.export_correct fold v D.hist D.exts hne ho heo
  refine ⟨?_, template, ?_, by decide, blankCatalog, ?_, rfl⟩
  · unfold save
    rw [hhead, Outcome.ok_bind]
    simp only
    have hfalse : (snapshot C rootobj v r).2 = false := by
      cases hx : (snapshot C rootobj v r).2 with
      | false => rfl
      | true =>
        exfalso
        refine hsnap ?_
        cases hy : (snapshot C rootobj v r).1 with
        | some b => exact ⟨b, (snapshot_iff C rootobj v r hlen1 hlen2 b).1 (Prod.ext hy hx)⟩
        | none =>
          unfold snapshot at hx hy
          split at hx
          · cases hx
          · rename_i hne
            rw [if_neg hne] at hy
            split at hx
            · cases hx
            · rename_i s hs
              rw [hs] at hy
              simp only at hy
              split at hy
              · cases hy
              · split at hy <;> cases hy
    rw [hfalse, if_neg (by decide), hver, Outcome.ok_bind, hout, Outcome.ok_bind]
    simp only
    unfold maps
    rw [addObjects_throw]
    · rfl
    · intro y hy
      refine ⟨h1 _ ((h3 y.1).1 (List.mem_map_of_mem hy)), fun e he => ?_⟩
      obtain ⟨⟨b, a, hb, _⟩, _⟩ := (h4 y hy e).1 he
      exact h2 e (by rw [hb]; simp)
    · obtain ⟨y, hy, rfl⟩ := List.mem_map.1 ((h3 x).2 hx)
      refine ⟨y, hy, ?_⟩
      rcases hbad with h | ⟨e, he, h⟩
      · exact Or.inl h
      · exact Or.inr ⟨e, (h4 y hy e).2 he, h⟩
  · unfold left
    rw [hhead]
  · rfl

/-! ### Versions -/

theorem digit_same (x d : Nat) (h : 48 ≤ d ∧ d ≤ 57) : SameLetter x d ↔ x = d := by
  have hc : ∀ p ∈ casePairs, ¬ (48 ≤ p.1 ∧ p.1 ≤ 57) ∧ ¬ (48 ≤ p.2 ∧ p.2 ≤ 57) := by decide +kernel
  unfold SameLetter
  constructor
  · rintro (h1 | h1 | h1)
    · exact h1
    · exact absurd h (hc _ h1).2
    · exact absurd h (hc _ h1).1
  · exact Or.inl

theorem digits_same (t d : List Nat) (h : ∀ c ∈ d, 48 ≤ c ∧ c ≤ 57) : SameText t d ↔ t = d := by
  induction t generalizing d with
  | nil => cases d <;> simp [SameText]
  | cons x t ih =>
    cases d with
    | nil => simp [SameText]
    | cons y d =>
      rw [SameText, digit_same x y (h y (by simp)), ih d (fun c hc => h c (by simp [hc]))]
      simp

/-- The formats of depots, and the texts that stand for them. -/
def formats : List (Str × Format) :=
  [("0300000000000000".toList, .ver3), ("0500000000000000".toList, .ver5), ("0600000000000000".toList, .ver6), ("0700000000000000".toList, .ver7)]

/-- **C90: formats.** The four texts stand for the four formats; any other text is refused. -/
theorem depot_format (t : List Nat) (ht : Unicode.Spec.Name t) :
    (∀ p ∈ formats, t = codes p.1 → depotFormat (utf8Text t) = .ok p.2) ∧ ((∀ p ∈ formats, t ≠ codes p.1) → depotFormat (utf8Text t) = .throw) := by
  have hd : ∀ p ∈ formats, (∀ c ∈ codes p.1, 48 ≤ c ∧ c ≤ 57) ∧ Unicode.Spec.Name (codes p.1) := by
    have : ∀ p ∈ formats, ∀ c ∈ codes p.1, 48 ≤ c ∧ c ≤ 57 := by decide +kernel
    refine fun p hp => ⟨this p hp, fun c hc => ?_⟩
    have := this p hp c hc
    refine ⟨?_, by omega⟩
    unfold Scalar
    omega
  have heq : ∀ p ∈ formats, (t = codes p.1 → equalIC (utf8Text t) (utf8Text (codes p.1)) = .ok true) ∧
      (t ≠ codes p.1 → equalIC (utf8Text t) (utf8Text (codes p.1)) = .ok false) := by
    intro p hp
    have := equalIC_iff t (codes p.1) ht (hd p hp).2
    rw [digits_same t _ (hd p hp).1] at this
    exact ⟨this.1.2, this.2.2⟩
  have e3 := heq _ (List.mem_cons_self)
  have e5 := heq ("0500000000000000".toList, .ver5) (by decide)
  have e6 := heq ("0600000000000000".toList, .ver6) (by decide)
  have e7 := heq ("0700000000000000".toList, .ver7) (by decide)
  have a3 : Cli.asc "0300000000000000" = utf8Text (codes "0300000000000000".toList) := by decide +kernel
  have a5 : Cli.asc "0500000000000000" = utf8Text (codes "0500000000000000".toList) := by decide +kernel
  have a6 : Cli.asc "0600000000000000" = utf8Text (codes "0600000000000000".toList) := by decide +kernel
  have a7 : Cli.asc "0700000000000000" = utf8Text (codes "0700000000000000".toList) := by decide +kernel
  have hne : ∀ p ∈ formats, ∀ q ∈ formats, codes p.1 = codes q.1 → p = q := by decide +kernel
  unfold depotFormat
  rw [a3, a5, a6, a7]
  simp only at e3 e5 e6 e7
  constructor
  · intro p hp hpt
    have nq : ∀ q ∈ formats, p ≠ q → t ≠ codes q.1 := fun q hq h e => h (hne p hp q hq (hpt.symm.trans e))
    simp only [formats, List.mem_cons, List.not_mem_nil, or_false] at hp
    rcases hp with rfl | rfl | rfl | rfl
    · rw [e3.1 hpt]; rfl
    · rw [e3.2 (nq ("0300000000000000".toList, .ver3) (by decide) (by decide)), e5.1 hpt]; rfl
    · rw [e3.2 (nq ("0300000000000000".toList, .ver3) (by decide) (by decide)), e5.2 (nq ("0500000000000000".toList, .ver5) (by decide) (by decide)), e6.1 hpt]; rfl
    · rw [e3.2 (nq ("0300000000000000".toList, .ver3) (by decide) (by decide)), e5.2 (nq ("0500000000000000".toList, .ver5) (by decide) (by decide)),
        e6.2 (nq ("0600000000000000".toList, .ver6) (by decide) (by decide)), e7.1 hpt]; rfl
  · intro h
    rw [e3.2 (h ("0300000000000000".toList, .ver3) (by decide)), e5.2 (h ("0500000000000000".toList, .ver5) (by decide)),
      e6.2 (h ("0600000000000000".toList, .ver6) (by decide)), e7.2 (h ("0700000000000000".toList, .ver7) (by decide))]
    rfl

/-- **C90: the version of the structure.** In a depot of format 5 or later it is in the record, as two numbers of two bytes, the high byte first; in format 3 it
goes by the database. -/
theorem config_version (db : Db.Ver) :
    (∀ f, f ≠ .ver3 → ∀ major minor, major < 65536 → minor < 65536 → ∀ rest, configVer f db ([UInt8.ofNat (major / 256), UInt8.ofNat (major % 256),
      UInt8.ofNat (minor / 256), UInt8.ofNat (minor % 256)] ++ rest) = .ok (major, minor)) ∧
    ∀ cver, configVer .ver3 db cver = .ok (match db with | .v8_0_3 | .v8_0_5 => (6, 0) | .v8_1_0 => (106, 0) | _ => (216, 0)) := by
  constructor
  · intro f hf major minor h1 h2 rest
    have hb : ∀ n, n < 256 → (UInt8.ofNat n).toNat = n := fun n hn => by simp; omega
    have : configVer f db ([UInt8.ofNat (major / 256), UInt8.ofNat (major % 256), UInt8.ofNat (minor / 256), UInt8.ofNat (minor % 256)] ++ rest) =
        .ok (256 * (UInt8.ofNat (major / 256)).toNat + (UInt8.ofNat (major % 256)).toNat,
          256 * (UInt8.ofNat (minor / 256)).toNat + (UInt8.ofNat (minor % 256)).toNat) := by
      cases f with
      | ver3 => exact absurd rfl hf
      | ver5 => rfl
      | ver6 => rfl
      | ver7 => rfl
    rw [this, hb _ (by omega), hb _ (by omega), hb _ (by omega), hb _ (by omega), Nat.div_add_mod, Nat.div_add_mod]
  · intro cver
    cases db <;> rfl

/-! ### Names of snapshots -/

/-- The last characters of a text. -/
def lastChars (s : Str) (k : Nat) : Str := s.drop (s.length - k)

theorem last_snoc (s : Str) (c : Char) (k : Nat) : lastChars (s ++ [c]) (k + 1) = lastChars s k ++ [c] := by
  unfold lastChars
  rw [List.length_append, List.length_singleton, Nat.add_sub_add_right, List.drop_append_of_le_length (Nat.sub_le _ _)]

theorem padText_zero (k : Nat) : Decimal.Spec.padText k 0 = List.replicate k '0' := by
  induction k with
  | zero => rfl
  | succ k ih =>
    rw [Decimal.Spec.padText, ih, List.replicate_succ']
    rfl

theorem last_pad (k : Nat) : ∀ (n : Nat) (pre : Str), lastChars (pre ++ List.replicate k '0' ++ Decimal.Spec.natText n) k = Decimal.Spec.padText k n := by
  induction k with
  | zero =>
    intro n pre
    simp [lastChars, Decimal.Spec.padText]
  | succ k ih =>
    intro n pre
    rw [Decimal.Spec.natText, Decimal.Spec.padText]
    split
    · rename_i h
      rw [last_snoc, Nat.div_eq_of_lt h, Nat.mod_eq_of_lt h, padText_zero, List.replicate_succ]
      congr 1
      rw [← List.singleton_append, ← List.append_assoc]
      unfold lastChars
      rw [List.length_append, List.length_replicate, Nat.add_sub_cancel, List.drop_left]
    · rw [← List.append_assoc, last_snoc, List.replicate_succ, ← List.singleton_append, ← List.append_assoc, ih]

theorem digit_inj {a b : Nat} (ha : a < 10) (hb : b < 10) (h : Decimal.Spec.digit a = Decimal.Spec.digit b) : a = b := by
  have : ∀ i j : Fin 10, Decimal.Spec.digit i.val = Decimal.Spec.digit j.val → i = j := by decide
  have := this ⟨a, ha⟩ ⟨b, hb⟩ h
  simpa using this

theorem padText_eq (k : Nat) : ∀ n m : Nat, Decimal.Spec.padText k n = Decimal.Spec.padText k m ↔ n % 10 ^ k = m % 10 ^ k := by
  induction k with
  | zero => intro n m; simp [Decimal.Spec.padText, Nat.mod_one]
  | succ k ih =>
    intro n m
    have e : ∀ n : Nat, n % 10 ^ (k + 1) = n % 10 + 10 * (n / 10 % 10 ^ k) := by
      intro n
      rw [Nat.pow_succ, Nat.mul_comm, Nat.mod_mul]
    rw [Decimal.Spec.padText, Decimal.Spec.padText, e, e]
    constructor
    · intro h
      obtain ⟨h1, h2⟩ := List.append_inj' h rfl
      have h3 := digit_inj (Nat.mod_lt n (by decide)) (Nat.mod_lt m (by decide)) (List.cons.inj h2).1
      rw [(ih _ _).1 h1, h3]
    · intro h
      have h3 : n % 10 = m % 10 := by omega
      rw [(ih (n / 10) (m / 10)).2 (by omega), h3]

/-- **C90: names of snapshots.** The snapshots of two versions are looked for in the same file exactly when the numbers have the same last five digits: below one
hundred thousand every version has its own file, and above it a version shares the file of an earlier one. -/
theorem snapshot_names (v w : Nat) : snapName v = snapName w ↔ v % 100000 = w % 100000 := by
  have h : ∀ v : Nat, snapName v = "ddb".toList ++ Decimal.Spec.padText 5 v ++ ".snp".toList := by
    intro v
    have h1 : (toString (v : Int)).toList = Decimal.Spec.natText v := by
      rw [← Field.toDigits_natText]
      show (toString v).toList = _
      rw [show toString v = String.ofList (Nat.toDigits 10 v) from rfl, String.toList_ofList]
    have h2 := last_pad 5 v []
    unfold snapName
    simp only
    rw [h1, ← h2]
    rfl
  rw [h, h, List.append_left_inj, List.append_right_inj, padText_eq]

end Verif.Depot.File.Theorems
