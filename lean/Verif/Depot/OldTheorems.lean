import Verif.Depot.FileTheorems

/-! # Theorems: the file a version of a depot of the old format is saved into (C90) -/

namespace Verif.Depot.File.Theorems
open Verif Verif.Container Verif.Container.Spec Verif.Unicode Verif.Unicode.Spec Verif.Depot.File Verif.Depot.File.Spec
open Verif.Config.Whole.Spec (codes SameName)

/-! ## Lemmas -/

theorem same_length {a b : Str} (h : SameName a b) : a.length = b.length := by
  have key : ∀ x y : List Nat, SameText x y → x.length = y.length := by
    intro x
    induction x with
    | nil => intro y h; cases y with
      | nil => rfl
      | cons => exact absurd h (by simp [SameText])
    | cons c x ih => intro y h; cases y with
      | nil => exact absurd h (by simp [SameText])
      | cons d y => rw [List.length_cons, List.length_cons, ih y h.2]
  have := key _ _ h
  simpa [codes] using this

/-- No object is called `root`. -/
theorem object_name {j : Job} {a : Str} {v b : Bytes} (h : Object j a v b) : (∀ c ∈ a, c.toNat ≠ 0) ∧ ¬ SameName a "root".toList := by
  cases h with
  | @mk r hn =>
    have hg := asMS_guid (j.S.objId r)
    refine ⟨fun c hc => ?_, fun hs => ?_⟩
    · have w : ∀ c ∈ "-0123456789abcdefABCDEF".toList, c.toNat ≠ 0 := by decide
      exact w c ((guid_chars hg).2 c hc)
    · have hl := same_length hs
      obtain ⟨p, q, t, u, w, he, h1, h2, h3, h4, h5⟩ := hg
      rw [he] at hl
      have e1 := h1.1
      have e2 := h2.1
      simp only [List.length_append, List.length_cons, e1] at hl
      simp at hl
      omega

theorem object_iff {j : Job} {out : List (Hist × List Ext)} (h2 : ∀ r, r ∈ out.map (·.1) ↔ Depot.Spec.Newest j.ver j.hist r) (a : Str) (v b : Bytes) :
    (a, v, b) ∈ objectsOf j out ↔ Object j a v b := by
  unfold objectsOf
  rw [List.mem_map]
  constructor
  · rintro ⟨x, hx, h⟩
    cases h
    exact .mk ((h2 x.1).1 (List.mem_map_of_mem hx))
  · intro h
    cases h with
    | mk hn =>
      obtain ⟨x, hx, rfl⟩ := List.mem_map.1 ((h2 _).2 hn)
      exact ⟨x, hx, rfl⟩

theorem external_iff {j : Job} {out : List (Hist × List Ext)} (h2 : ∀ r, r ∈ out.map (·.1) ↔ Depot.Spec.Newest j.ver j.hist r)
    (h3 : ∀ x ∈ out, ∀ e, e ∈ x.2 ↔ Depot.Spec.Belongs j.fold j.ver j.exts x.1 e) (a : Str) (v b : Bytes) :
    (a, v, b) ∈ extsOf j out ↔ External j a v b := by
  unfold extsOf
  rw [List.mem_flatMap]
  constructor
  · rintro ⟨x, hx, h⟩
    obtain ⟨e, he, h⟩ := List.mem_map.1 h
    cases h
    exact .mk ((h2 x.1).1 (List.mem_map_of_mem hx)) ((h3 x hx e).1 he)
  · intro h
    cases h with
    | mk hn hb =>
      obtain ⟨x, hx, rfl⟩ := List.mem_map.1 ((h2 _).2 hn)
      exact ⟨x, hx, List.mem_map_of_mem ((h3 x hx _).2 hb)⟩

theorem external_ne {j : Job} (ha : ApartOld j) {a : Str} {v b : Bytes} (h : External j a v b) :
    a ≠ [] ∧ a ≠ "version".toList ∧ a ≠ "versions".toList := by
  obtain ⟨h1, _, h3, _⟩ := ha.2 _ _ _ h
  exact ⟨h1, fun e => h3 _ (by decide) (same_eq e), fun e => h3 _ (by decide) (same_eq e)⟩

theorem listedOld_inj {j : Job} (ha : ApartOld j) : ∀ p q, ListedOld j p → ListedOld j q → p.1 = q.1 → p = q := by
  have d1 : ("version".toList : Str) ≠ [] := by decide
  have d2 : ("versions".toList : Str) ≠ [] := by decide
  have d3 : ("version".toList : Str) ≠ "versions".toList := by decide
  have main : ∀ p, ListedOld j p → (p = ([], Guid.asMS (j.S.gen 0)) ∨ p = ("version".toList, Guid.asMS (j.S.gen 1)) ∨
      p = ("versions".toList, Guid.asMS (j.S.gen 2)) ∨ ∃ v b, External j p.1 v b ∧ p.2 = Guid.asMS v) := by
    intro p h
    cases h with
    | whole => exact Or.inl rfl
    | version => exact Or.inr (Or.inl rfl)
    | versions => exact Or.inr (Or.inr (Or.inl rfl))
    | external h => exact Or.inr (Or.inr (Or.inr ⟨_, _, h, rfl⟩))
  intro p q hp hq e
  rcases main p hp with rfl | rfl | rfl | ⟨v, b, h1, h2⟩ <;> rcases main q hq with rfl | rfl | rfl | ⟨w, c, h3, h4⟩
  case inr.inr.inr.inr.inr.inr =>
    obtain ⟨_, e2, _⟩ := (ha.2 _ _ _ h1).2.2.2 _ _ _ h3 (same_eq e)
    exact Prod.ext e (by rw [h2, h4, e2])
  all_goals first
    | rfl
    | exact absurd e d1 | exact absurd e d2 | exact absurd e d3 | exact absurd e.symm d1 | exact absurd e.symm d2 | exact absurd e.symm d3
    | exact absurd e (external_ne ha h1).1 | exact absurd e (external_ne ha h1).2.1 | exact absurd e (external_ne ha h1).2.2
    | exact absurd e.symm (external_ne ha h3).1 | exact absurd e.symm (external_ne ha h3).2.1 | exact absurd e.symm (external_ne ha h3).2.2

theorem rooted_inj {j : Job} (ha : ApartOld j) : ∀ p q, Rooted j p → Rooted j q → p.1 = q.1 → p = q := by
  intro p q hp hq e
  cases hp with
  | object h1 =>
    cases hq with
    | object h2 =>
      obtain ⟨e1, e2, _⟩ := ha.1 _ _ _ h1 _ _ _ h2 (same_eq e)
      exact Prod.ext e1 (by rw [e2])

theorem holdsMeta_inj {j : Job} (ha : ApartOld j) {rootobj : Bytes} {l : List (Str × Str)} :
    ∀ p q, HoldsMeta j rootobj l p → HoldsMeta j rootobj l q → SameName p.1 q.1 → p = q := by
  intro p q hp hq e
  cases hp with
  | object h1 =>
    cases hq with
    | object h2 =>
      obtain ⟨e1, _, e2⟩ := ha.1 _ _ _ h1 _ _ _ h2 e
      exact Prod.ext e1 e2
    | root => exact absurd e (object_name h1).2
  | root =>
    cases hq with
    | object h2 => exact absurd (same_symm e) (object_name h2).2
    | root => rfl

theorem holdsOld_inj {j : Job} (ha : ApartOld j) {major minor : Nat} {l : List (Str × Str)} :
    ∀ p q, HoldsOld j major minor l p → HoldsOld j major minor l q → SameName p.1 q.1 → p = q := by
  intro p q hp hq e
  have f1 : "version".toList ∈ fixedOld := by decide
  have f2 : "versions".toList ∈ fixedOld := by decide
  have f3 : "version".toList.length ≠ "versions".toList.length := by decide
  cases hp with
  | external h1 =>
    obtain ⟨_, _, h5, h6⟩ := ha.2 _ _ _ h1
    cases hq with
    | external h2 =>
      obtain ⟨e1, _, e2⟩ := h6 _ _ _ h2 e
      exact Prod.ext e1 e2
    | version => exact absurd e (h5 _ f1)
    | versions => exact absurd e (h5 _ f2)
  | version =>
    cases hq with
    | external h2 => exact absurd (same_symm e) ((ha.2 _ _ _ h2).2.2.1 _ f1)
    | version => rfl
    | versions => exact absurd (same_length e) f3
  | versions =>
    cases hq with
    | external h2 => exact absurd (same_symm e) ((ha.2 _ _ _ h2).2.2.1 _ f2)
    | version => exact absurd (same_length e).symm f3
    | versions => rfl

/-- Names in order that are apart. -/
theorem pairwise_apart {fs : List (Str × Bytes)} {P : Str × Bytes → Prop} (hs : Sorted fs) (hf : ∀ p ∈ fs, P p)
    (hi : ∀ p q, P p → P q → SameName p.1 q.1 → p = q) : fs.Pairwise (fun p q => ¬ SameName p.1 q.1) := by
  refine List.Pairwise.imp_of_mem (fun {a b} ha hb hlt hsame => ?_) hs
  have := hi a b (hf a ha) (hf b hb) hsame
  subst this
  exact List.lt_irrefl _ hlt

/-! ## C90 -/

/-- **C90: the old format.** Saving a version of a depot for which there is no snapshot, in a configuration of the old format, whatever the file held
before: the file is then a container, with the entry `metadata` before the external data of the objects and the files `version` and `versions`. That entry is
a packed container, with the objects of the version and the file `root`. There is nothing else in either; every name, in any case, gives
the contents. The three files are readable: `versions` lists exactly the files beside `metadata`, and the whole, `root` exactly the objects, with the
identifiers of their versions and their number. Not covered: empty contents; configurations of 2 gigabytes. -/
theorem saved_old_depot_partial (C : Cache) (fuel now : Nat) (hf : LAST ≤ fuel) (hnow : now < 2 ^ 64) (D : Depot) (asked : Int) (old : Option Bytes)
    (j : Job) (hh : D.hist = j.hist) (he : D.exts = j.exts) (f : Format) (rootobj : Bytes) (r : Row) (major minor : Nat)
    (hhead : header D asked = .ok (f, rootobj, j.ver, r)) (hlen1 : rootobj.length = 16) (hlen2 : r.maker.length = 16)
    (hsnap : ¬ ∃ b, Snapshot C rootobj j.ver r b)
    (hver : configVer f D.db r.cver = .ok (major, minor)) (hold : major < 100)
    (hne : j.hist ≠ []) (ho : Depot.Spec.HistOrder j.hist) (heo : Depot.Spec.ExtOrder j.exts)
    (hread : ReadableOld j) (hapart : ApartOld j) (hdef : ∀ b, j.S.deflate b ≠ [])
    (hroom : ∀ l roots ms fs, Sorted l → (∀ p, p ∈ l ↔ ListedOld j p) → Sorted roots → (∀ p, p ∈ roots ↔ Rooted j p) →
      Sorted ms → (∀ p, p ∈ ms ↔ HoldsMeta j rootobj roots p) → Sorted fs → (∀ p, p ∈ fs ↔ HoldsOld j major minor l p) →
      Spec.room ms < 2 ^ 31 - 1 ∧ ∀ b, b.length ≤ Spec.room ms → Spec.room (("metadata".toList, j.S.deflate b) :: fs) < 2 ^ 31 - 1) :
    ∃ d k b ki l roots ms fs, save j.S C j.fold fuel now D asked old = .ok (some d) ∧
      Sorted l ∧ (∀ p, p ∈ l ↔ ListedOld j p) ∧ Sorted roots ∧ (∀ p, p ∈ roots ↔ Rooted j p) ∧
      Sorted ms ∧ (∀ p, p ∈ ms ↔ HoldsMeta j rootobj roots p) ∧ Sorted fs ∧ (∀ p, p ∈ fs ↔ HoldsOld j major minor l p) ∧
      openCatalog fuel d = .ok (some (.container k)) ∧ Keeps fuel k (("metadata".toList, j.S.deflate b) :: fs) ∧
      openCatalog fuel b = .ok (some (.container ki)) ∧ Keeps fuel ki ms ∧
      (∀ t ∈ [versionTree major minor, rootTreeOld rootobj roots, versionsTree l], Tree.parseText (Tree.outtext (.list [t])) = .ok (.list [t])) := by
  obtain ⟨out, hout, _, h2, h3⟩ := Depot.Theorems.export_correct j.fold j.ver j.hist j.exts hne ho heo
  have hobj := object_iff (j := j) h2
  have hext := external_iff (j := j) h2 h3
  have hdata : ∀ x ∈ out, j.S.objData true x.1 = .ok (some (j.objData x.1)) ∧ ∀ e ∈ x.2, j.S.extData e = .ok (some (j.extData e)) := by
    intro x hx
    have hn := (h2 x.1).1 (List.mem_map_of_mem hx)
    exact ⟨(hread.1 _ hn).1, fun e he => (hread.2 _ _ hn ((h3 x hx e).1 he)).1⟩
  obtain ⟨m, hm, hv, hfl, hro, hme⟩ := maps_old j major minor hold rootobj out hdata
  have hl : ∀ p, p ∈ m.vers ↔ ListedOld j p := by
    have key : ∀ p, p ∈ [([], Guid.asMS (j.S.gen 0)), ("version".toList, Guid.asMS (j.S.gen 1))] ++ versOf (extsOf j out) ++
        [("versions".toList, Guid.asMS (j.S.gen 2))] ↔ ListedOld j p := by
      intro p
      simp only [List.mem_append, List.mem_cons, List.not_mem_nil, or_false, mem_versOf, hext]
      constructor
      · rintro (((rfl | rfl) | ⟨v, b, h, e⟩) | rfl)
        · exact .whole
        · exact .version
        · have := ListedOld.external h
          rw [← e] at this
          exact this
        · exact .versions
      · intro h
        cases h with
        | whole => simp
        | version => simp
        | versions => simp
        | external h => exact Or.inl (Or.inr ⟨_, _, h, rfl⟩)
    intro p
    rw [hv, mem_puts_nil _ (fun p hp q hq => listedOld_inj hapart p q ((key p).1 hp) ((key q).1 hq)), key]
  have hr : ∀ p, p ∈ m.roots ↔ Rooted j p := by
    have key : ∀ p, p ∈ versOf (objectsOf j out) ↔ Rooted j p := by
      intro p
      simp only [mem_versOf, hobj]
      constructor
      · rintro ⟨v, b, h, e⟩
        have := Rooted.object h
        rw [← e] at this
        exact this
      · intro h
        cases h with
        | object h => exact ⟨_, _, h, rfl⟩
    intro p
    rw [hro, mem_puts_nil _ (fun p hp q hq => rooted_inj hapart p q ((key p).1 hp) ((key q).1 hq)), key]
  have hfs : ∀ p, p ∈ m.files ↔ HoldsOld j major minor m.vers p := by
    have key : ∀ p, p ∈ [("version".toList, packedText j.S (versionTree major minor))] ++ filesOf (extsOf j out) ++
        [("versions".toList, packedText j.S (versionsTree m.vers))] ↔ HoldsOld j major minor m.vers p := by
      intro p
      simp only [List.mem_append, List.mem_cons, List.not_mem_nil, or_false, mem_filesOf, hext]
      constructor
      · rintro ((rfl | ⟨v, h⟩) | rfl)
        · exact .version
        · exact .external h
        · exact .versions
      · intro h
        cases h with
        | version => simp
        | versions => simp
        | external h => exact Or.inl (Or.inr ⟨_, h⟩)
    intro p
    rw [hfl, mem_puts_nil _ (fun p hp q hq e => holdsOld_inj hapart p q ((key p).1 hp) ((key q).1 hq) (same_eq e)), key]
  have hms : ∀ p, p ∈ m.metas ↔ HoldsMeta j rootobj m.roots p := by
    have key : ∀ p, p ∈ filesOf (objectsOf j out) ++
        [("root".toList, [0xEF, 0xBB, 0xBF] ++ utf8Text (codes (Tree.outtext (.list [rootTreeOld rootobj m.roots]))))] ↔ HoldsMeta j rootobj m.roots p := by
      intro p
      simp only [List.mem_append, List.mem_singleton, mem_filesOf, hobj]
      constructor
      · rintro (⟨v, h⟩ | rfl)
        · exact .object h
        · exact .root
      · intro h
        cases h with
        | root => exact Or.inr rfl
        | object h => exact Or.inl ⟨_, h⟩
    intro p
    rw [hme, mem_puts_nil _ (fun p hp q hq e => holdsMeta_inj hapart p q ((key p).1 hp) ((key q).1 hq) (same_eq e)), key]
  have hsl : Sorted m.vers := by rw [hv]; exact puts_sorted (by simp [Sorted]) _
  have hsr : Sorted m.roots := by rw [hro]; exact puts_sorted (by simp [Sorted]) _
  have hsf : Sorted m.files := by rw [hfl]; exact puts_sorted (by simp [Sorted]) _
  have hsm : Sorted m.metas := by rw [hme]; exact puts_sorted (by simp [Sorted]) _
  have hplain : ∀ p ∈ m.files, p.2 ≠ [] ∧ ∀ c ∈ p.1, c.toNat ≠ 0 := by
    intro p hp
    cases (hfs p).1 hp with
    | external h =>
      refine ⟨?_, (hapart.2 _ _ _ h).2.1⟩
      cases h with
      | mk hn hb => exact (hread.2 _ _ hn hb).2
    | version => exact ⟨hdef _, (by decide : ∀ c ∈ "version".toList, c.toNat ≠ 0)⟩
    | versions => exact ⟨hdef _, (by decide : ∀ c ∈ "versions".toList, c.toNat ≠ 0)⟩
  have hmplain : ∀ p ∈ m.metas, p.2 ≠ [] ∧ ∀ c ∈ p.1, c.toNat ≠ 0 := by
    intro p hp
    cases (hms p).1 hp with
    | object h =>
      refine ⟨?_, (object_name h).1⟩
      cases h with
      | mk hn => exact (hread.1 _ hn).2
    | root => exact ⟨by simp, (by decide : ∀ c ∈ "root".toList, c.toNat ≠ 0)⟩
  have hno : ∀ p ∈ m.files, ¬ SameName "metadata".toList p.1 := by
    intro p hp e
    cases (hfs p).1 hp with
    | external h => exact (hapart.2 _ _ _ h).2.2.1 _ (by decide) (same_symm e)
    | version => exact absurd (same_length e) (by decide : "metadata".toList.length ≠ "version".toList.length)
    | versions => exact absurd e (by unfold SameName; decide +kernel : ¬ SameName "metadata".toList "versions".toList)
  obtain ⟨hr1, hr2⟩ := hroom m.vers m.roots m.metas m.files hsl hl hsr hr hsm hms hsf hfs
  obtain ⟨d, k, b, ki, hs, hopen, hk, hopeni, hki⟩ := storeOld_ok j.S.deflate fuel now hf hnow ((snapshot C rootobj j.ver r).1.or old) m.metas m.files
    hmplain (pairwise_apart hsm (fun p hp => (hms p).1 hp) (holdsMeta_inj hapart)) hplain
    (pairwise_apart hsf (fun p hp => (hfs p).1 hp) (holdsOld_inj hapart)) hno hdef hr1 hr2
  refine ⟨d, k, b, ki, m.vers, m.roots, m.metas, m.files, ?_, hsl, hl, hsr, hr, hsm, hms, hsf, hfs, hopen, hk, hopeni, hki, ?_⟩
  · unfold save
    rw [hhead, Outcome.ok_bind]
    simp only
    rw [snapshot_absent C rootobj j.ver r hlen1 hlen2 hsnap, if_neg (by decide), hver, Outcome.ok_bind, hh, he, hout, Outcome.ok_bind]
    simp only
    rw [hm, Outcome.ok_bind, if_pos hold]
    exact hs
  · intro t ht
    simp only [List.mem_cons, List.not_mem_nil, or_false] at ht
    rcases ht with rfl | rfl | rfl
    · exact version_parses _ _
    · refine root_old_parses _ _ (fun p hp => ?_)
      cases (hr p).1 hp with
      | object _ => exact ⟨_, rfl⟩
    · refine versions_parses _ (fun p hp => ?_)
      cases (hl p).1 hp with
      | whole => exact ⟨_, rfl⟩
      | version => exact ⟨_, rfl⟩
      | versions => exact ⟨_, rfl⟩
      | external _ => exact ⟨_, rfl⟩

end Verif.Depot.File.Theorems
