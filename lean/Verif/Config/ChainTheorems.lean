import Verif.Config.ChainSpec
import Verif.Config.StoredTheorems
import Verif.Config.SaveTheorems
import Verif.Config.SelectTheorems
import Verif.Config.WholeTheorems
import Verif.Blob.Theorems

/-! # Property theorems: the configuration of a database as a container file (C107) -/

namespace Verif.Config.Chain
open Verif Verif.Config Verif.Unicode.Spec

/-! ## Names -/

theorem toBytes_utf8 (cps : List Nat) : Field.toBytes (Field.Spec.utf8Str cps) = utf8Text cps := Field.toBytes_ofBytes _

theorem utf8Str_inj {a b : List Nat} (ha : Unicode.Spec.Name a) (hb : Unicode.Spec.Name b) (h : Field.Spec.utf8Str a = Field.Spec.utf8Str b) : a = b := by
  have h' : Field.toBytes (Field.Spec.utf8Str a) = Field.toBytes (Field.Spec.utf8Str b) := by rw [h]
  rw [toBytes_utf8, toBytes_utf8] at h'
  exact Unicode.utf8Text_inj a b (fun c hc => (ha c hc).1) (fun c hc => (hb c hc).1) h'

theorem lowerStr_utf8 {cps : List Nat} (h : Unicode.Spec.Name cps) : lowerStr (Field.Spec.utf8Str cps) = Field.Spec.utf8Str (cps.map Unicode.toLower) := by
  unfold lowerStr
  rw [toBytes_utf8, Unicode.lowerCase_spec cps (fun c hc => (h c hc).1)]
  have : cps.takeWhile (· ≠ 0) = cps := by
    clear * - h
    induction cps with
    | nil => rfl
    | cons c cps ih =>
      rw [List.takeWhile_cons_of_pos (by simpa using (h c (List.mem_cons_self ..)).2), ih (fun x hx => h x (List.mem_cons_of_mem _ hx))]
  rw [this]
  rfl

theorem lower_name {cps : List Nat} (h : Unicode.Spec.Name cps) : Unicode.Spec.Name (cps.map Unicode.toLower) := by
  intro c hc
  obtain ⟨x, hx, rfl⟩ := List.mem_map.mp hc
  exact ⟨Unicode.toLower_scalar x (h x hx).1, fun e => (h x hx).2 ((Unicode.toLower_zero x).1 e)⟩

theorem same_iff (a b : List Nat) : SameText a b ↔ a.map Unicode.toLower = b.map Unicode.toLower := by
  induction a generalizing b with
  | nil => cases b <;> simp [SameText]
  | cons x a ih =>
    cases b with
    | nil => simp [SameText]
    | cons y b => rw [SameText, ih, List.map_cons, List.map_cons, List.cons.injEq, Unicode.toLower_same]

theorem lower_same {a b : List Nat} (ha : Unicode.Spec.Name a) (hb : Unicode.Spec.Name b) :
    lowerStr (Field.Spec.utf8Str a) = lowerStr (Field.Spec.utf8Str b) ↔ SameText a b := by
  rw [lowerStr_utf8 ha, lowerStr_utf8 hb, same_iff]
  exact ⟨fun h => utf8Str_inj (lower_name ha) (lower_name hb) h, fun h => by rw [h]⟩

theorem ascii_str (s : String) (h : ∀ c ∈ s.toList, c.toNat < 128) : Field.Spec.utf8Str (Spec.codes s) = s.toList := by
  unfold Spec.codes Field.Spec.utf8Str utf8Text
  generalize s.toList = l at h
  induction l with
  | nil => rfl
  | cons c l ih =>
    have hc := h c (List.mem_cons_self ..)
    rw [List.map_cons, List.flatMap_cons, List.map_append, ih (fun x hx => h x (List.mem_cons_of_mem _ hx))]
    unfold utf8
    rw [if_pos (by omega)]
    simp only [List.map_cons, List.map_nil, List.singleton_append]
    congr 1
    rw [UInt8.toNat_ofNat', Nat.mod_eq_of_lt (by omega)]
    exact Char.ofNat_toNat c

/-! ## Keys -/

theorem upd_keys {α : Type} (m : List (Str × α)) (k : Str) (f : Option α → α) :
    (upd m k f).map Prod.fst = if k ∈ m.map Prod.fst then m.map Prod.fst else m.map Prod.fst ++ [k] := by
  induction m with
  | nil => simp [upd]
  | cons p m ih =>
    obtain ⟨a, v⟩ := p
    rw [upd]
    by_cases h : a = k
    · subst h; simp
    · rw [if_neg h, List.map_cons, ih]
      by_cases h2 : k ∈ m.map Prod.fst
      · have h3 : k ∈ ((a, v) :: m).map Prod.fst := List.mem_cons_of_mem _ h2
        rw [if_pos h2, if_pos h3]; rfl
      · have h3 : k ∉ ((a, v) :: m).map Prod.fst := by rw [List.map_cons, List.mem_cons, not_or]; exact ⟨fun e => h e.symm, h2⟩
        rw [if_neg h2, if_neg h3]; rfl

theorem upd_new {α : Type} (m : List (Str × α)) (k : Str) (f : Option α → α) (h : k ∉ m.map Prod.fst) : upd m k f = m ++ [(k, f none)] := by
  induction m with
  | nil => rfl
  | cons p m ih =>
    obtain ⟨a, v⟩ := p
    rw [List.map_cons, List.mem_cons, not_or] at h
    rw [upd, if_neg (fun e => h.1 e.symm), ih h.2]
    rfl

theorem upd_nodup {α : Type} (m : List (Str × α)) (k : Str) (f : Option α → α) (h : (m.map Prod.fst).Nodup) : ((upd m k f).map Prod.fst).Nodup := by
  rw [upd_keys]
  split
  · exact h
  · rename_i hk
    rw [List.nodup_append]
    refine ⟨h, by simp, ?_⟩
    intro a ha b hb e
    rw [List.mem_singleton] at hb
    subst e; subst hb
    exact hk ha

theorem upd_mem {α : Type} (m : List (Str × α)) (k : Str) (f : Option α → α) (x : Str) (h : x ∈ (upd m k f).map Prod.fst) : x = k ∨ x ∈ m.map Prod.fst := by
  rw [upd_keys] at h
  split at h
  · exact .inr h
  · rcases List.mem_append.mp h with h | h
    · exact .inr h
    · exact .inl (by simpa using h)

theorem find_of_mem {α : Type} {m : List (Str × α)} (h : (m.map Prod.fst).Nodup) {p : Str × α} (hp : p ∈ m) : find m p.1 = some p.2 := by
  induction m with
  | nil => cases hp
  | cons q m ih =>
    obtain ⟨a, v⟩ := q
    rw [List.map_cons, List.nodup_cons] at h
    rw [find]
    rcases List.mem_cons.mp hp with rfl | hp
    · simp
    · rw [if_neg (fun e => h.1 (List.mem_map.mpr ⟨p, hp, e.symm⟩)), ih h.2 hp]

theorem mem_of_find {α : Type} {m : List (Str × α)} {k : Str} {v : α} (h : find m k = some v) : (k, v) ∈ m := by
  induction m with
  | nil => cases h
  | cons q m ih =>
    obtain ⟨a, w⟩ := q
    rw [find] at h
    split at h
    · rename_i e; cases h; rw [e]; exact List.mem_cons_self ..
    · exact List.mem_cons_of_mem _ (ih h)

theorem maxParts_keys (lower : Str → Str) (recs : List Row) : ∀ m : List (Str × Int), (m.map Prod.fst).Nodup →
    ((maxParts lower recs m).map Prod.fst).Nodup ∧ ∀ k ∈ (maxParts lower recs m).map Prod.fst, k ∈ m.map Prod.fst ∨ ∃ r ∈ recs, lower r.name = k := by
  induction recs with
  | nil => intro m h; exact ⟨h, fun k hk => .inl hk⟩
  | cons r recs ih =>
    intro m h
    rw [maxParts]
    obtain ⟨a, b⟩ := ih _ (upd_nodup m (lower r.name) _ h)
    refine ⟨a, fun k hk => ?_⟩
    rcases b k hk with h1 | ⟨x, hx, e⟩
    · rcases upd_mem _ _ _ _ h1 with h2 | h2
      · exact .inr ⟨r, List.mem_cons_self .., h2.symm⟩
      · exact .inl h2
    · exact .inr ⟨x, List.mem_cons_of_mem _ hx, e⟩

theorem placeAll_keys (lower : Str → Str) (recs : List Row) : ∀ m : List (Str × TFile), (m.map Prod.fst).Nodup →
    ((placeAll lower recs m).map Prod.fst).Nodup ∧ ∀ k ∈ (placeAll lower recs m).map Prod.fst, k ∈ m.map Prod.fst ∨ ∃ r ∈ recs, lower r.name = k := by
  induction recs with
  | nil => intro m h; exact ⟨h, fun k hk => .inl hk⟩
  | cons r recs ih =>
    intro m h
    rw [placeAll]
    obtain ⟨a, b⟩ := ih _ (upd_nodup m (lower r.name) _ h)
    refine ⟨a, fun k hk => ?_⟩
    rcases b k hk with h1 | ⟨x, hx, e⟩
    · rcases upd_mem _ _ _ _ h1 with h2 | h2
      · exact .inr ⟨r, List.mem_cons_self .., h2.symm⟩
      · exact .inl h2
    · exact .inr ⟨x, List.mem_cons_of_mem _ hx, e⟩

/-- Each key of the store is that of a record, and no two are the same. -/
theorem store_keys {lower : Str → Str} {rows : List Row} {store : List (Str × TFile)} (h : tableFiles lower rows = .ok store) :
    (store.map Prod.fst).Nodup ∧ ∀ p ∈ store, ∃ r ∈ rows, Config.Spec.Counts r ∧ lower r.name = p.1 := by
  unfold tableFiles at h
  dsimp only at h
  split at h
  · cases h
  · cases h
    obtain ⟨a, b⟩ := maxParts_keys lower (rows.filter live) [] List.nodup_nil
    have hk : ∀ m : List (Str × Int), (m.map (fun p => (p.1, newFile p.1 p.2))).map Prod.fst = m.map Prod.fst := by
      intro m; rw [List.map_map]; rfl
    obtain ⟨c, d⟩ := placeAll_keys lower (rows.filter live) ((maxParts lower (rows.filter live) []).map (fun p => (p.1, newFile p.1 p.2))) (by rw [hk]; exact a)
    refine ⟨c, fun p hp => ?_⟩
    have : ∃ r ∈ rows.filter live, lower r.name = p.1 := by
      rcases d p.1 (List.mem_map_of_mem hp) with h1 | h1
      · rw [hk] at h1
        rcases b _ h1 with h2 | h2
        · cases h2
        · exact h2
      · exact h1
    obtain ⟨r, hr, e⟩ := this
    obtain ⟨h1, h2⟩ := List.mem_filter.mp hr
    exact ⟨r, h1, (FilesTheorems.live_iff r).1 h2, e⟩

theorem insKey_perm {α : Type} (p : Str × α) (l : List (Str × α)) : (insKey p l).Perm (p :: l) := by
  induction l with
  | nil => exact .refl _
  | cons q l ih =>
    unfold insKey
    split
    · exact .refl _
    · exact (ih.cons q).trans (.swap p q l)

theorem byKey_perm {α : Type} (l : List (Str × α)) : (byKey l).Perm l := by
  unfold byKey
  induction l with
  | nil => exact .refl _
  | cons p l ih => exact (insKey_perm p _).trans (ih.cons p)

/-! ## Names that stand for themselves -/

theorem rfind_mark {s : Str} (h : ¬ "_dynupdate_".toList <:+: s) : rfind dynMark s = none := by
  apply SelectTheorems.rfind_none
  intro i
  cases hs : startsAt dynMark s i with
  | false => rfl
  | true =>
    obtain ⟨t, ht⟩ := (SelectTheorems.startsAt_iff _ _ _).1 hs
    exact absurd ⟨s.take i, t, by rw [List.append_assoc, show "_dynupdate_".toList = dynMark from rfl, ← ht, List.take_append_drop]⟩ h

theorem splitExt_dot (base ext : Str) (he : '.' ∉ ext) : splitExt (base ++ '.' :: ext) = (base, ext) := by
  have h : rfind ['.'] (base ++ '.' :: ext) = some base.length := by
    apply SelectTheorems.rfind_last
    · simp
    · rw [SelectTheorems.startsAt_iff]
      exact ⟨ext, by simp⟩
    · intro i hi
      cases hs : startsAt ['.'] (base ++ '.' :: ext) i with
      | false => rfl
      | true =>
        have := SelectTheorems.startsAt_char ['.'] _ i 0 (by decide) hs
        rw [Nat.add_zero, List.getElem?_append_right (by omega), show i - base.length = (i - base.length - 1) + 1 by omega, List.getElem?_cons_succ] at this
        exact absurd (List.mem_of_getElem? this) he
  unfold splitExt
  rw [h]
  simp

theorem utf8_point {c : Nat} (hc : Unicode.Spec.Scalar c) (h : (46 : UInt8) ∈ utf8 c) : c = 46 := by
  unfold utf8 at h
  unfold Unicode.Spec.Scalar at hc
  split at h
  · simp only [List.mem_singleton] at h
    have := congrArg UInt8.toNat h
    simp only [UInt8.toNat_ofNat'] at this
    have e : (46 : UInt8).toNat = 46 := rfl
    rw [e] at this
    omega
  · exfalso
    split at h
    · simp only [List.mem_cons, List.not_mem_nil, or_false] at h
      rcases h with h | h <;> (have := congrArg UInt8.toNat h; simp only [UInt8.toNat_ofNat'] at this; rw [show (46 : UInt8).toNat = 46 from rfl] at this; omega)
    · split at h
      · simp only [List.mem_cons, List.not_mem_nil, or_false] at h
        rcases h with h | h | h <;> (have := congrArg UInt8.toNat h; simp only [UInt8.toNat_ofNat'] at this; rw [show (46 : UInt8).toNat = 46 from rfl] at this; omega)
      · simp only [List.mem_cons, List.not_mem_nil, or_false] at h
        rcases h with h | h | h | h <;> (have := congrArg UInt8.toNat h; simp only [UInt8.toNat_ofNat'] at this; rw [show (46 : UInt8).toNat = 46 from rfl] at this; omega)

theorem no_point {cps : List Nat} (h : Unicode.Spec.Name cps) (hp : 46 ∉ cps) : '.' ∉ Field.Spec.utf8Str cps := by
  unfold Field.Spec.utf8Str
  intro hm
  obtain ⟨b, hb, e⟩ := List.mem_map.mp hm
  have : b = 46 := by
    have key : ∀ i : Fin 256, Char.ofNat (UInt8.ofNat i.val).toNat = '.' → i.val = 46 := by decide +kernel
    have := key ⟨b.toNat, b.toNat_lt⟩ (by simpa using e)
    apply UInt8.toNat_inj.mp
    simpa using this
  subst this
  unfold utf8Text at hb
  obtain ⟨c, hc, hb⟩ := List.mem_flatMap.mp hb
  have := utf8_point (h c hc).1 hb
  subst this
  exact hp hc

theorem variant_ordinary {cps : List Nat} (h : Unicode.Spec.Name cps) (ho : Spec.Ordinary cps) (dynup : List Bytes) :
    variant lowerStr dynup (Field.Spec.utf8Str cps) = .ok (Field.Spec.utf8Str cps, -1) := by
  have hnew : lowerStr "new".toList = "new".toList := by decide +kernel
  rcases ho with ⟨h1, h2⟩ | ⟨stem, ext, rfl, h1, h2, h3, h4⟩
  · exact SelectTheorems.plain_variant lowerStr (by decide +kernel) dynup _ (no_point h h1) (rfind_mark h2)
  · have he : Unicode.Spec.Name ext := fun c hc => h c (List.mem_append_right _ (List.mem_cons_of_mem _ hc))
    have hs : Field.Spec.utf8Str (stem ++ 46 :: ext) = Field.Spec.utf8Str stem ++ '.' :: Field.Spec.utf8Str ext := by
      unfold Field.Spec.utf8Str utf8Text
      rw [List.flatMap_append, List.flatMap_cons, List.map_append, List.map_append]
      rfl
    have hne : ¬ lowerStr (Field.Spec.utf8Str ext) = lowerStr "new".toList := by
      rw [show "new".toList = Field.Spec.utf8Str (Spec.codes "new") from (ascii_str "new" (by decide)).symm,
        lower_same he (by intro c hc; revert c; decide)]
      exact h3
    have hem : (Field.Spec.utf8Str ext).isEmpty = false := by
      cases ext with
      | nil => exact absurd rfl h2
      | cons c ext =>
        cases hu : Field.Spec.utf8Str (c :: ext) with
        | cons _ _ => rfl
        | nil =>
          have := utf8Str_inj (a := c :: ext) (b := []) he (by intro c hc; cases hc) (by rw [hu]; rfl)
          cases this
    rw [hs]
    unfold variant
    rw [splitExt_dot _ _ (no_point he h1)]
    simp only
    rw [splitUpdate, rfind_mark h4]
    simp only
    rw [if_neg hne, Outcome.ok_bind, hem]
    simpa using hne

/-! ## Opening the configuration -/

theorem configFiles_ordinary (dynup : List Bytes) (fs : List (Str × TFile)) (hv : ∀ p ∈ fs, variant lowerStr dynup p.2.name = .ok (p.2.name, -1)) :
    ∀ m : List (Str × Chosen TFile), (m.map Prod.fst ++ fs.map (fun p => lowerStr p.2.name)).Nodup →
    configFiles lowerStr dynup (fs.map (fun p => (p.2.name, p.2))) m = .ok (m ++ fs.map (fun p => (lowerStr p.2.name, ⟨p.2.name, p.2, -1⟩))) := by
  induction fs with
  | nil => intro m _; simp [configFiles]
  | cons p fs ih =>
    intro m h
    rw [List.map_cons, configFiles, hv p (List.mem_cons_self ..), Outcome.ok_bind]
    have hnew : lowerStr p.2.name ∉ m.map Prod.fst := by
      intro hm
      exact (List.nodup_append.mp h).2.2 _ hm _ (List.mem_map_of_mem (f := fun p : Str × TFile => lowerStr p.2.name) (List.mem_cons_self ..)) rfl
    rw [upd_new _ _ _ hnew, ih (fun q hq => hv q (List.mem_cons_of_mem _ hq)) _ (by
      rw [List.map_append, List.append_assoc]
      exact h)]
    simp [choose]

/-! ## The files of the store -/

/-- The file of the store belongs to the stored file. -/
structure Link (rows : List Row) (f : Spec.CFile) (p : Str × TFile) (r : Row) (cps : List Nat) : Prop where
  row : r ∈ rows
  counts : Config.Spec.Counts r
  part : r.part = 0
  name : Unicode.Spec.Name cps
  text : r.name = Field.Spec.utf8Str cps
  same : SameText f.name cps
  tname : p.2.name = r.name
  key : p.1 = lowerStr r.name
  addr : p.2.addr = f.parts.map (·.1)
  created : p.2.created = r.created

theorem says_part {rows : List Row} {all : List Spec.CFile} (h : Config.Spec.Says lowerStr rows (all.map Spec.CFile.stored)) (f : Spec.CFile) (hf : f ∈ all)
    (p : (Nat × Nat) × Bytes) (hp : p ∈ f.parts) : p.1.2 ≠ 0 := by
  obtain ⟨i, hi, e⟩ := List.mem_iff_getElem.mp hp
  obtain ⟨r, _, hc, e2⟩ := (says_iff h (lowerStr f.stored.name, (i : Int), p.1.1, p.1.2)).mpr
    ⟨f.stored, List.mem_map_of_mem hf, i, p, by rw [show f.stored.parts = f.parts from rfl, List.getElem?_eq_getElem hi, e], rfl⟩
  simp only [Prod.mk.injEq] at e2
  rw [← e2.2.2.2]
  exact hc.2.2.1

theorem store_linked {rows : List Row} {all : List Spec.CFile} (h : Config.Spec.Says lowerStr rows (all.map Spec.CFile.stored))
    (hname : ∀ f ∈ all, Unicode.Spec.Name f.name) (hd : all.Pairwise (fun f g => ¬ SameText f.name g.name)) (hne : ∀ f ∈ all, f.parts ≠ [])
    (hrows : ∀ r ∈ rows, Config.Spec.Counts r → ∃ cps, Unicode.Spec.Name cps ∧ r.name = Field.Spec.utf8Str cps) :
    ∃ store, tableFiles lowerStr rows = .ok store ∧ (store.map Prod.fst).Nodup ∧
      (∀ p ∈ store, ∃ f ∈ all, ∃ r cps, Link rows f p r cps) ∧ (∀ f ∈ all, ∃ p ∈ store, ∃ r cps, Link rows f p r cps) ∧
      ∀ n, Unicode.Spec.Name n → (∀ f ∈ all, ¬ SameText f.name n) → getFile lowerStr store (Field.Spec.utf8Str n) = none := by
  have hdup : ((all.map Spec.CFile.stored).map (fun f => lowerStr f.name)).Nodup := by
    rw [List.map_map, List.Nodup, List.pairwise_map]
    refine hd.imp_of_mem ?_
    intro f g hf hg hn e
    exact hn ((lower_same (hname f hf) (hname g hg)).mp e)
  obtain ⟨store, s1, s2⟩ := says_found h hdup (by
    intro f hf
    obtain ⟨g, hg, rfl⟩ := List.mem_map.mp hf
    exact hne g hg)
  obtain ⟨k1, k2⟩ := store_keys s1
  have key : ∀ f ∈ all, ∀ n : Str, lowerStr f.stored.name = lowerStr n → ∃ tf, getFile lowerStr store n = some tf ∧ ∃ r cps, Link rows f (lowerStr n, tf) r cps := by
    intro f hf n hn
    obtain ⟨tf, t1, t2, r, hr, hc, hk, hp, hh, hcr, _⟩ := (s2 n).2 f.stored (List.mem_map_of_mem hf) hn
    obtain ⟨cps, c1, c2⟩ := hrows r hr hc
    refine ⟨tf, t1, r, cps, hr, hc, hp, c1, c2, ?_, hh, hk.symm, t2, hcr⟩
    rw [← lower_same (hname f hf) c1, ← c2, hk]
    exact hn
  refine ⟨store, s1, k1, ?_, ?_, ?_⟩
  · intro p hp
    obtain ⟨r, hr, hc, e⟩ := k2 p hp
    obtain ⟨g, hg, i, q, _, e2⟩ := (says_iff h _).mp ⟨r, hr, hc, rfl⟩
    obtain ⟨f, hf, rfl⟩ := List.mem_map.mp hg
    have hk : lowerStr f.stored.name = lowerStr r.name := (congrArg Prod.fst e2).symm
    obtain ⟨tf, t1, r', cps, hl⟩ := key f hf r.name hk
    have hfind := find_of_mem k1 hp
    unfold getFile at t1
    rw [e, hfind] at t1
    cases t1
    rw [e] at hl
    exact ⟨f, hf, r', cps, hl⟩
  · intro f hf
    obtain ⟨tf, t1, r', cps, hl⟩ := key f hf f.stored.name rfl
    exact ⟨_, mem_of_find t1, r', cps, hl⟩
  · intro n hn hno
    refine (s2 _).1 ?_
    intro f hf e
    obtain ⟨g, hg, rfl⟩ := List.mem_map.mp hf
    exact hno g hg ((lower_same (hname g hg) hn).mp e)

/-! ## Reading the files -/

theorem blob_read {blob : Bytes} {st : Blob.Spec.State} (hb : Blob.Spec.Represents blob st) (hl : blob.length < 2 ^ 32) (fuel : Nat) (hf : 2 ^ 24 ≤ fuel)
    (inflate : Bytes → Bytes × Bool) (f : Spec.CFile) (hi : Spec.InBlobs st f) :
    ∀ p ∈ f.parts, (blobIo (some blob) fuel inflate).blob p.1.1 p.1.2 = (p.2, true) := by
  intro p hp
  obtain ⟨b, hbm, e1, e2, e3⟩ := hi p hp
  have hlen : b.data.length < 2 ^ 32 := by
    obtain ⟨A, rfl, hA, hpos, _, _, hbl, hall⟩ := hb.ex
    have hc := (hbl b hbm).2.2
    have hcl := Blob.chain_length_le hbm
    have hal := hall.length_eq
    rw [List.length_range'] at hal
    have hfl := Blob.flatten_length hA
    have : ∀ (l : List Nat) (d : Bytes), Blob.Spec.Content A l d → d.length ≤ 250 * l.length := by
      intro l
      induction l with
      | nil => intro d h; cases (show d = [] from h); simp
      | cons x l ih =>
        rintro d ⟨d1, d2, rfl, h1, h2⟩
        have := ih d2 h2
        obtain h1 := h1
        unfold Blob.Spec.Holds at h1
        obtain ⟨q, _, _, hd, _⟩ := h1
        rw [List.length_append, List.length_cons]
        omega
    have := this _ _ hc
    omega
  have := (Blob.read_back_partial blob st hb hl b hbm fuel (by omega) hlen).2.2.1
  unfold blobIo
  dsimp only
  rw [← e1, e3, ← e2, this]

theorem raw_parts {io : Io} (f : Spec.CFile) (h : ∀ p ∈ f.parts, io.blob p.1.1 p.1.2 = (p.2, true)) :
    Opening.Spec.Raw io (f.parts.map (·.1)) f.contents := by
  constructor
  · intro p hp
    obtain ⟨q, hq, rfl⟩ := List.mem_map.mp hp
    rw [h q hq]
  · unfold Spec.CFile.contents
    rw [List.flatMap_map]
    generalize f.parts = ps at h
    induction ps with
    | nil => rfl
    | cons p ps ih =>
      rw [List.flatMap_cons, List.flatMap_cons, h p (List.mem_cons_self ..), ih (fun q hq => h q (List.mem_cons_of_mem _ hq))]

/-- Reading the list of updates. -/
theorem tree_read (a : Around) (io : Io) (f : Spec.CFile) (tf : TFile) (h : ∀ p ∈ f.parts, io.blob p.1.1 p.1.2 = (p.2, true))
    (haddr : tf.addr = f.parts.map (·.1)) (hn : lowerStr tf.name = lowerStr "DynamicallyUpdated".toList) : treeOf a io tf = a.parse f.contents := by
  have hp : isPacked lowerStr tf.name = .ok false := by unfold isPacked; rw [if_pos hn]
  obtain ⟨h0, e0, ⟨h', e1, i, e2, e3⟩, _⟩ := Opening.opening_partial (lower := lowerStr) (io := io) (name := tf.name) (parts := tf.addr)
    (raw := f.contents) (plain := f.contents) (by rw [haddr]; exact raw_parts f h) (.inr ⟨hp, rfl⟩) []
  cases (show Outcome.ok Handle.init = .ok h0 from e0)
  unfold treeOf
  rw [e1, Outcome.ok_bind]
  simp only [if_true]
  have : streamData h' = .ok f.contents := by
    unfold streamData
    rw [e2]
    dsimp only
    unfold Handle.data
    rw [e3]
  rw [this, Outcome.ok_bind]

/-! ## Perm of two lists with the same keys -/

theorem map_perm {α β κ γ : Type} [DecidableEq κ] (l1 : List α) (l2 : List β) (k1 : α → κ) (k2 : β → κ) (f1 : α → γ) (f2 : β → γ)
    (h1 : (l1.map k1).Nodup) (h2 : (l2.map k2).Nodup) (h12 : ∀ a ∈ l1, ∃ b ∈ l2, k1 a = k2 b ∧ f1 a = f2 b) (h21 : ∀ b ∈ l2, ∃ a ∈ l1, k1 a = k2 b ∧ f1 a = f2 b) :
    (l1.map f1).Perm (l2.map f2) := by
  have n1 : (l1.map (fun a => (k1 a, f1 a))).Nodup := by
    rw [List.Nodup, List.pairwise_map] at h1 ⊢
    exact h1.imp (fun hne e => hne (congrArg Prod.fst e))
  have n2 : (l2.map (fun a => (k2 a, f2 a))).Nodup := by
    rw [List.Nodup, List.pairwise_map] at h2 ⊢
    exact h2.imp (fun hne e => hne (congrArg Prod.fst e))
  have hp : (l1.map (fun a => (k1 a, f1 a))).Perm (l2.map (fun a => (k2 a, f2 a))) := by
    rw [List.perm_ext_iff_of_nodup n1 n2]
    rintro ⟨k, v⟩
    rw [List.mem_map, List.mem_map]
    constructor
    · rintro ⟨a, ha, e⟩
      obtain ⟨b, hb, e1, e2⟩ := h12 a ha
      exact ⟨b, hb, by rw [← e1, ← e2]; exact e⟩
    · rintro ⟨b, hb, e⟩
      obtain ⟨a, ha, e1, e2⟩ := h21 b hb
      exact ⟨a, ha, by rw [e1, e2]; exact e⟩
  have := hp.map Prod.snd
  rwa [List.map_map, List.map_map] at this

/-! ## The whole -/

/-- The item made of a file of the configuration. -/
def itemFn (q : Str × Chosen TFile) : Item :=
  ⟨(match nameText q.2.name with | .ok n => n | _ => []), q.2.file.addr, .ofInt q.2.file.created, .ofInt q.2.file.modified, Handle.init⟩

theorem name_text {cps : List Nat} (h : Unicode.Spec.Name cps) : nameText (Field.Spec.utf8Str cps) = .ok (cps.map Char.ofNat) := by
  unfold nameText
  rw [toBytes_utf8, Unicode.decodeAll_complete cps (fun c hc => (h c hc).1) _ (Nat.le_refl _)]
  rfl

theorem codes_chars {cps : List Nat} (h : Unicode.Spec.Name cps) : Whole.Spec.codes (cps.map Char.ofNat) = cps := by
  unfold Whole.Spec.codes
  rw [List.map_map]
  conv => rhs; rw [← List.map_id cps]
  apply List.map_congr_left
  intro c hc
  have := (h c hc).1
  unfold Unicode.Spec.Scalar at this
  have hv : c.isValidChar := by unfold Nat.isValidChar; omega
  show (Char.ofNat c).toNat = c
  rw [Char.ofNat, dif_pos hv]
  rfl

theorem itemsOf_all (l : List (Str × Chosen TFile)) (h : ∀ q ∈ l, ∃ cps, Unicode.Spec.Name cps ∧ q.2.name = Field.Spec.utf8Str cps) :
    itemsOf l = .ok (l.map itemFn) := by
  induction l with
  | nil => rfl
  | cons q l ih =>
    obtain ⟨cps, c1, c2⟩ := h q (List.mem_cons_self ..)
    unfold itemsOf
    rw [c2, name_text c1, Outcome.ok_bind, ih (fun x hx => h x (List.mem_cons_of_mem _ hx)), Outcome.ok_bind]
    rw [List.map_cons, itemFn, c2, name_text c1]

theorem utf16_lower (a b : List Nat) (h : SameText a b) : (utf16Text a).length = (utf16Text b).length := by
  induction a generalizing b with
  | nil => cases b with
    | nil => rfl
    | cons _ _ => exact absurd h (by simp [SameText])
  | cons x a ih =>
    cases b with
    | nil => exact absurd h (by simp [SameText])
    | cons y b =>
      obtain ⟨h1, h2⟩ := h
      have e := ih b h2
      have : (utf16 x).length = (utf16 y).length := by
        rcases h1 with h1 | h1 | h1
        · rw [h1]
        all_goals
          rw [Unicode.casePairs_mem] at h1
          unfold utf16
          rw [if_pos (by omega), if_pos (by omega)]
          rfl
      unfold utf16Text at e ⊢
      rw [List.flatMap_cons, List.flatMap_cons, List.length_append, List.length_append, e, this]

theorem same_symm {a b : List Nat} (h : SameText a b) : SameText b a := by rw [same_iff] at *; exact h.symm
theorem same_trans {a b c : List Nat} (h : SameText a b) (h' : SameText b c) : SameText a c := by rw [same_iff] at *; exact h.trans h'

theorem du_name : Unicode.Spec.Name (Spec.codes "DynamicallyUpdated") := by
  intro c hc
  revert c
  unfold Unicode.Spec.Scalar
  decide

theorem du_str : Field.Spec.utf8Str (Spec.codes "DynamicallyUpdated") = "DynamicallyUpdated".toList := ascii_str _ (by decide)

/-- **C107.** The records of the configuration's table hold the parts of `files`, and perhaps a list of updates, in any order,
and its blobs hold the bytes of the parts. Then exporting the configuration succeeds, whatever the file held before, and
the file is a container with as many entries as there are files: every name, in any case, gives the contents
of the file of this name and no other name gives anything. Each entry has the name and the time of creation of a record
of a first part. Missing: names that stand for updates (C50); containers of 2 GB; the times of modification, and the names without
NULs behind them (C84). -/
theorem config_exported_partial (a : Around) (fuel : Nat) (hf : Container.LAST ≤ fuel) (cols : List Col) (hn : Config.Spec.Named cols)
    (hc : Config.Spec.Columns cols) (t : Record.Tab) (rows : List Row) (hw : Record.Spec.Whole t rows.length)
    (hr : ∀ j row, rows[j]? = some row → Config.Spec.Held a.clock cols (Record.Spec.record t j) row)
    (ups : Option Spec.CFile) (files : List Spec.CFile)
    (hs : Config.Spec.Says lowerStr rows ((ups.toList ++ files).map Spec.CFile.stored))
    (hname : ∀ f ∈ ups.toList ++ files, Unicode.Spec.Name f.name ∧ f.parts ≠ [])
    (hd : (ups.toList ++ files).Pairwise (fun f g => ¬ SameText f.name g.name))
    (hrows : ∀ r ∈ rows, Config.Spec.Counts r → ∃ cps, Unicode.Spec.Name cps ∧ r.name = Field.Spec.utf8Str cps ∧
      (Spec.Ordinary cps ∨ SameText cps (Spec.codes "DynamicallyUpdated")))
    (blob : Bytes) (st : Blob.Spec.State) (hb : Blob.Spec.Represents blob st) (hbl : blob.length < 2 ^ 32)
    (hparts : ∀ f ∈ ups.toList ++ files, Spec.InBlobs st f)
    (hups : ∀ f ∈ ups, SameText f.name (Spec.codes "DynamicallyUpdated") ∧ ∃ tt ids, a.parse f.contents = .ok tt ∧
      Config.Spec.ListsIds tt ids ∧ (∀ g ∈ ids, g.length = 16) ∧ ids.length < 2147483648)
    (hfiles : ∀ f ∈ files, ¬ SameText f.name (Spec.codes "DynamicallyUpdated"))
    (hroom : Spec.room files < 2 ^ 31 - 1) (old : Option Bytes) :
    ∃ d k, exportConfig a fuel (some (cols, t, some blob)) old = .ok (some (true, some d)) ∧
      Container.openCatalog fuel d = .ok (some (.container k)) ∧ k.ents.length = files.length ∧
      (∀ f ∈ files, ∀ n, Unicode.Spec.Name n → SameText f.name n →
        Container.content Container.plainCodec fuel k (utf8Text n) = .ok (some (some f.contents))) ∧
      (∀ n, Unicode.Spec.Name n → (∀ f ∈ files, ¬ SameText f.name n) →
        Container.content Container.plainCodec fuel k (utf8Text n) = .ok (some none)) ∧
      (∀ e ∈ k.ents, ∃ r ∈ rows, Config.Spec.Counts r ∧ r.part = 0 ∧ ∃ cps z, r.name = Field.Spec.utf8Str cps ∧
        e.name = utf8Text (cps ++ List.replicate z 0) ∧ Whole.Spec.Same64 (a.stamp (.ofInt r.created)) e.created) := by
  have hfuel : 2 ^ 24 ≤ fuel := by
    have : Container.LAST = 2147483647 := rfl
    omega
  obtain ⟨store, s1, s2, s3, s4, s5⟩ := store_linked hs (fun f hf => (hname f hf).1) hd (fun f hf => (hname f hf).2)
    (fun r hr hc => by obtain ⟨cps, c1, c2, _⟩ := hrows r hr hc; exact ⟨cps, c1, c2⟩)
  have hio : ∀ f ∈ ups.toList ++ files, ∀ p ∈ f.parts, (blobIo (some blob) fuel a.inflate).blob p.1.1 p.1.2 = (p.2, true) :=
    fun f hf => blob_read hb hbl fuel hfuel a.inflate f (hparts f hf)
  -- the list of updates
  obtain ⟨ids, hids⟩ : ∃ ids, guidsOf lowerStr (treeOf a (blobIo (some blob) fuel a.inflate)) store "DynamicallyUpdated".toList = .ok ids := by
    unfold guidsOf
    cases hu : ups with
    | none =>
      rw [← du_str, s5 _ du_name (by rw [hu]; simpa using hfiles)]
      exact ⟨[], rfl⟩
    | some f =>
      obtain ⟨h1, tt, ids, h2, h3, h4, h5⟩ := hups f (by rw [hu]; rfl)
      have hfm : f ∈ ups.toList ++ files := by rw [hu]; simp
      obtain ⟨p, hp, r, cps, hl⟩ := s4 f hfm
      have hk : p.1 = lowerStr "DynamicallyUpdated".toList := by
        rw [hl.key, hl.text, ← du_str, lower_same hl.name du_name]
        exact same_trans (same_symm hl.same) h1
      have hfind : getFile lowerStr store "DynamicallyUpdated".toList = some p.2 := by
        unfold getFile
        rw [← hk]
        exact find_of_mem s2 hp
      rw [hfind]
      dsimp only
      rw [tree_read a _ f p.2 (hio f hfm) hl.addr (by rw [hl.tname, ← hl.key, hk]), h2, Outcome.ok_bind, guidList_ids h3 h4 h5]
      exact ⟨ids, rfl⟩
  -- the files taken
  generalize hS : (byKey store).filter (taken lowerStr "DynamicallyUpdated".toList) = S
  have hSmem : ∀ p, p ∈ S ↔ p ∈ store ∧ taken lowerStr "DynamicallyUpdated".toList p = true := by
    intro p
    rw [← hS, List.mem_filter, (byKey_perm store).mem_iff]
  have hSnodup : (S.map Prod.fst).Nodup := by
    have h1 : ((byKey store).map Prod.fst).Nodup := ((byKey_perm store).map Prod.fst).nodup_iff.mpr s2
    rw [← hS]
    exact h1.sublist (List.filter_sublist.map Prod.fst)
  have hS1 : ∀ p ∈ S, ∃ f ∈ files, ∃ r cps, Link rows f p r cps := by
    intro p hp
    obtain ⟨h1, h2⟩ := (hSmem p).mp hp
    obtain ⟨f, hfm, r, cps, hl⟩ := s3 p h1
    rcases List.mem_append.mp hfm with hu | hfm
    · exfalso
      obtain ⟨h3, _⟩ := hups f (by simpa using hu)
      unfold taken at h2
      simp only [Bool.and_eq_true, decide_eq_true_eq] at h2
      apply h2.1
      rw [hl.key, hl.text, ← du_str, lower_same hl.name du_name]
      exact same_trans (same_symm hl.same) h3
    · exact ⟨f, hfm, r, cps, hl⟩
  have hS2 : ∀ f ∈ files, ∃ p ∈ S, ∃ r cps, Link rows f p r cps := by
    intro f hfm
    have hfa : f ∈ ups.toList ++ files := List.mem_append_right _ hfm
    obtain ⟨p, hp, r, cps, hl⟩ := s4 f hfa
    refine ⟨p, (hSmem p).mpr ⟨hp, ?_⟩, r, cps, hl⟩
    unfold taken
    simp only [Bool.and_eq_true, decide_eq_true_eq]
    constructor
    · rw [hl.key, hl.text, ← du_str]
      intro e
      exact hfiles f hfm (same_trans hl.same ((lower_same hl.name du_name).mp e))
    · cases hps : f.parts with
      | nil => exact absurd hps (hname f hfa).2
      | cons q ps =>
        have := says_part hs f hfa q (by rw [hps]; exact List.mem_cons_self ..)
        rw [hl.addr, hps]
        exact this
  have hkey : S.map (fun p => lowerStr p.2.name) = S.map Prod.fst := by
    apply List.map_congr_left
    intro p hp
    obtain ⟨f, _, r, cps, hl⟩ := hS1 p hp
    rw [hl.tname, hl.key]
  have hcfg : openConfig a (blobIo (some blob) fuel a.inflate) store = .ok (S.map (fun p => (lowerStr p.2.name, (⟨p.2.name, p.2, -1⟩ : Chosen TFile)))) := by
    unfold openConfig
    rw [hids, Outcome.ok_bind, hS, configFiles_ordinary ids S ?_ [] (by rw [List.map_nil, List.nil_append, hkey]; exact hSnodup)]
    · rfl
    · intro p hp
      obtain ⟨f, hfm, r, cps, hl⟩ := hS1 p hp
      obtain ⟨cps', c1, c2, c3⟩ := hrows r hl.row hl.counts
      have : cps' = cps := utf8Str_inj c1 hl.name (c2.symm.trans hl.text)
      subst this
      rw [hl.tname, hl.text]
      rcases c3 with c3 | c3
      · exact variant_ordinary c1 c3 ids
      · exact absurd (same_trans hl.same c3) (hfiles f hfm)
  -- the items
  generalize hM : byKey (S.map (fun p => (lowerStr p.2.name, (⟨p.2.name, p.2, -1⟩ : Chosen TFile)))) = M
  have hMperm : M.Perm (S.map (fun p => (lowerStr p.2.name, (⟨p.2.name, p.2, -1⟩ : Chosen TFile)))) := by rw [← hM]; exact byKey_perm _
  have hM1 : ∀ q ∈ M, ∃ f ∈ files, ∃ p r cps, Link rows f p r cps ∧ q = (p.1, ⟨p.2.name, p.2, -1⟩) := by
    intro q hq
    obtain ⟨p, hp, e⟩ := List.mem_map.mp (hMperm.mem_iff.mp hq)
    obtain ⟨f, hfm, r, cps, hl⟩ := hS1 p hp
    exact ⟨f, hfm, p, r, cps, hl, by rw [← e, hl.tname, hl.key]⟩
  have hM2 : ∀ f ∈ files, ∃ q ∈ M, ∃ p r cps, Link rows f p r cps ∧ q = (p.1, ⟨p.2.name, p.2, -1⟩) := by
    intro f hfm
    obtain ⟨p, hp, r, cps, hl⟩ := hS2 f hfm
    exact ⟨_, hMperm.mem_iff.mpr (List.mem_map_of_mem hp), p, r, cps, hl, by rw [hl.tname, hl.key]⟩
  have hMnodup : (M.map Prod.fst).Nodup := by
    have := (hMperm.map Prod.fst).nodup_iff
    rw [this, List.map_map]
    show (S.map (fun p => lowerStr p.2.name)).Nodup
    rw [hkey]
    exact hSnodup
  have hitems : itemsOf M = .ok (M.map itemFn) := itemsOf_all M (fun q hq => by
    obtain ⟨f, _, p, r, cps, hl, e⟩ := hM1 q hq
    exact ⟨cps, hl.name, by rw [e, ← hl.text, ← hl.tname]⟩)
  have hitem : ∀ (f : Spec.CFile) (p : Str × TFile) (r : Row) (cps : List Nat), Link rows f p r cps →
      itemFn (p.1, ⟨p.2.name, p.2, -1⟩) = ⟨cps.map Char.ofNat, f.parts.map (·.1), .ofInt r.created, .ofInt p.2.modified, Handle.init⟩ := by
    intro f p r cps hl
    unfold itemFn
    dsimp only
    rw [hl.tname, hl.text, name_text hl.name, hl.addr, hl.created]
  generalize hraw : (fun q : Str × Chosen TFile => q.2.file.addr.flatMap (fun p => ((blobIo (some blob) fuel a.inflate).blob p.1 p.2).1)) = raw
  have hraw' : ∀ (f : Spec.CFile) (p : Str × TFile) (r : Row) (cps : List Nat), f ∈ files → Link rows f p r cps → raw (p.1, ⟨p.2.name, p.2, -1⟩) = f.contents := by
    intro f p r cps hfm hl
    rw [← hraw]
    dsimp only
    rw [hl.addr]
    exact (raw_parts f (hio f (List.mem_append_right _ hfm))).2.symm
  have hnz : ∀ f ∈ files, f.contents ≠ [] := by
    intro f hfm
    have hfa : f ∈ ups.toList ++ files := List.mem_append_right _ hfm
    unfold Spec.CFile.contents
    cases hps : f.parts with
    | nil => exact absurd hps (hname f hfa).2
    | cons q ps =>
      have h1 := says_part hs f hfa q (by rw [hps]; exact List.mem_cons_self ..)
      obtain ⟨b, _, _, _, h2⟩ := hparts f hfa q (by rw [hps]; exact List.mem_cons_self ..)
      rw [List.flatMap_cons]
      intro e
      have := (List.append_eq_nil_iff.mp e).1
      rw [this] at h2
      exact h1 h2
  have hne0 : ∀ f (p : Str × TFile) r cps, Link rows f p r cps → cps.map Char.ofNat ≠ [] := by
    intro f p r cps hl e
    have : cps = [] := List.map_eq_nil_iff.mp e
    exact hl.counts.2.2.2 (by rw [hl.text, this]; rfl)
  obtain ⟨d, its', k, e1, e2, e3, e4, e5, e6, e7, e8⟩ := Whole.saved_configuration_partial
    ⟨lowerText, blobIo (some blob) fuel a.inflate, a.stamp, a.now⟩ fuel hf old (M.map (fun q => (itemFn q, raw q))) (by
      intro x hx
      obtain ⟨q, hq, rfl⟩ := List.mem_map.mp hx
      obtain ⟨f, hfm, p, r, cps, hl, rfl⟩ := hM1 q hq
      rw [hitem f p r cps hl, hraw' f p r cps hfm hl]
      refine ⟨⟨raw_parts f (hio f (List.mem_append_right _ hfm)), ?_, .inl rfl⟩, hnz f hfm⟩
      rcases (Opening.packed_iff lowerText (cps.map Char.ofNat) (hne0 f p r cps hl)).1 with h | h
      · exact ⟨_, h⟩
      · exact ⟨_, h⟩)
    (by
      constructor
      · intro x hx
        obtain ⟨q, hq, rfl⟩ := List.mem_map.mp hx
        obtain ⟨f, hfm, p, r, cps, hl, rfl⟩ := hM1 q hq
        rw [hitem f p r cps hl]
        intro c hc
        have h1 : c.toNat ∈ Whole.Spec.codes (cps.map Char.ofNat) := List.mem_map_of_mem hc
        rw [codes_chars hl.name] at h1
        exact (hl.name _ h1).2
      · rw [List.pairwise_map]
        rw [List.Nodup, List.pairwise_map] at hMnodup
        refine hMnodup.imp_of_mem ?_
        intro q q' hq hq' hne hsame
        obtain ⟨f, hfm, p, r, cps, hl, rfl⟩ := hM1 q hq
        obtain ⟨f', hfm', p', r', cps', hl', rfl⟩ := hM1 q' hq'
        rw [hitem f p r cps hl, hitem f' p' r' cps' hl'] at hsame
        unfold Whole.Spec.SameName at hsame
        rw [codes_chars hl.name, codes_chars hl'.name] at hsame
        apply hne
        show p.1 = p'.1
        rw [hl.key, hl'.key, hl.text, hl'.text]
        exact (lower_same hl.name hl'.name).mpr hsame)
    (by
      have hperm : (M.map (fun q => (raw q).length + (utf16Text (Whole.Spec.codes (itemFn q).name)).length + 86)).Perm
          (files.map fun f => f.contents.length + (utf16Text f.name).length + 86) := by
        refine map_perm M files Prod.fst (fun f => lowerStr f.stored.name) _ _ hMnodup ?_ ?_ ?_
        · rw [List.Nodup, List.pairwise_map]
          refine (List.pairwise_append.mp hd).2.1.imp_of_mem ?_
          intro f g hf hg hno e
          exact hno ((lower_same (hname f (List.mem_append_right _ hf)).1 (hname g (List.mem_append_right _ hg)).1).mp e)
        · intro q hq
          obtain ⟨f, hfm, p, r, cps, hl, rfl⟩ := hM1 q hq
          refine ⟨f, hfm, ?_, ?_⟩
          · show p.1 = _
            rw [hl.key, hl.text]
            exact ((lower_same (hname f (List.mem_append_right _ hfm)).1 hl.name).mpr hl.same).symm
          · rw [hitem f p r cps hl, hraw' f p r cps hfm hl]
            dsimp only
            rw [codes_chars hl.name, utf16_lower _ _ hl.same]
        · intro f hfm
          obtain ⟨q, hq, p, r, cps, hl, rfl⟩ := hM2 f hfm
          refine ⟨_, hq, ?_, ?_⟩
          · show p.1 = _
            rw [hl.key, hl.text]
            exact ((lower_same (hname f (List.mem_append_right _ hfm)).1 hl.name).mpr hl.same).symm
          · rw [hitem f p r cps hl, hraw' f p r cps hfm hl]
            dsimp only
            rw [codes_chars hl.name, utf16_lower _ _ hl.same]
      have hlen := hperm.length_eq
      rw [List.length_map, List.length_map] at hlen
      have hsum := hperm.sum_nat
      unfold Whole.Spec.room
      unfold Spec.room at hroom
      rw [List.length_map, List.map_map]
      simp only [Function.comp_def]
      rw [hlen, hsum]
      exact hroom)
  have hMlen : M.length = files.length := by
    have := (map_perm M files Prod.fst (fun f => lowerStr f.stored.name) (fun _ => ()) (fun _ => ()) hMnodup (by
        rw [List.Nodup, List.pairwise_map]
        refine (List.pairwise_append.mp hd).2.1.imp_of_mem ?_
        intro f g hf hg hno e
        exact hno ((lower_same (hname f (List.mem_append_right _ hf)).1 (hname g (List.mem_append_right _ hg)).1).mp e)) (by
        intro q hq
        obtain ⟨f, hfm, p, r, cps, hl, rfl⟩ := hM1 q hq
        refine ⟨f, hfm, ?_, rfl⟩
        show p.1 = _
        rw [hl.key, hl.text]
        exact ((lower_same (hname f (List.mem_append_right _ hfm)).1 hl.name).mpr hl.same).symm) (by
        intro f hfm
        obtain ⟨q, hq, p, r, cps, hl, rfl⟩ := hM2 f hfm
        refine ⟨_, hq, ?_, rfl⟩
        show p.1 = _
        rw [hl.key, hl.text]
        exact ((lower_same (hname f (List.mem_append_right _ hfm)).1 hl.name).mpr hl.same).symm)).length_eq
    rwa [List.length_map, List.length_map] at this
  have htext : ∀ n : List Nat, Unicode.Spec.Name n → textBytes (n.map Char.ofNat) = utf8Text n := by
    intro n hn
    unfold textBytes
    exact congrArg utf8Text (codes_chars hn)
  have hchars : ∀ n : List Nat, Unicode.Spec.Name n → ∀ c ∈ n.map Char.ofNat, c.toNat ≠ 0 := by
    intro n hn c hc
    have h1 : c.toNat ∈ Whole.Spec.codes (n.map Char.ofNat) := List.mem_map_of_mem hc
    rw [codes_chars hn] at h1
    exact (hn _ h1).2
  refine ⟨d, k, ?_, e4, ?_, ?_, ?_, ?_⟩
  · unfold exportConfig
    dsimp only
    rw [open_store_rows ⟨a.sh, lowerStr, a.clock⟩ cols hn hc t rows hw hr]
    dsimp only
    rw [s1, Outcome.ok_bind, Outcome.ok_bind]
    dsimp only
    rw [hcfg, Outcome.ok_bind, hM, hitems, Outcome.ok_bind]
    rw [List.map_map] at e1
    rw [show M.map itemFn = M.map (Prod.fst ∘ fun q => (itemFn q, raw q)) from rfl, e1]
    rfl
  · rw [e5, List.length_map, hMlen]
  · intro f hfm n hnn hsame
    obtain ⟨q, hq, p, r, cps, hl, rfl⟩ := hM2 f hfm
    have := e7 _ (List.mem_map_of_mem hq) (n.map Char.ofNat) (hchars n hnn) (by
      dsimp only
      rw [hitem f p r cps hl]
      unfold Whole.Spec.SameName
      rw [codes_chars hl.name, codes_chars hnn]
      exact same_trans (same_symm hl.same) hsame)
    rw [htext n hnn, hraw' f p r cps hfm hl] at this
    exact this
  · intro n hnn hno
    have := e8 (n.map Char.ofNat) (hchars n hnn) (by
      intro x hx
      obtain ⟨q, hq, rfl⟩ := List.mem_map.mp hx
      obtain ⟨f, hfm, p, r, cps, hl, rfl⟩ := hM1 q hq
      dsimp only
      rw [hitem f p r cps hl]
      unfold Whole.Spec.SameName
      rw [codes_chars hl.name, codes_chars hnn]
      exact fun hsame => hno f hfm (same_trans hl.same hsame))
    rwa [htext n hnn] at this
  · intro e he
    obtain ⟨i, hi, rfl⟩ := List.mem_iff_getElem.mp he
    have hiM : i < M.length := by rw [e5, List.length_map] at hi; exact hi
    obtain ⟨f, hfm, p, r, cps, hl, hq⟩ := hM1 M[i] (List.getElem_mem hiM)
    obtain ⟨⟨z, hz⟩, h64⟩ := e6 i _ (itemFn M[i], raw M[i]) (List.getElem?_eq_getElem hi) (by
      rw [List.getElem?_map, List.getElem?_eq_getElem hiM]; rfl)
    rw [hq, hitem f p r cps hl] at hz h64
    dsimp only at hz h64
    rw [codes_chars hl.name] at hz
    exact ⟨r, hl.row, hl.counts, hl.part, cps, z, hl.text, hz, h64⟩

end Verif.Config.Chain
