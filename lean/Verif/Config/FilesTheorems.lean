import Verif.Config.FilesSpec
import Verif.Blob.Model

/-! # Theorems about files stored in a table (property C49) -/

namespace Verif.Config.FilesTheorems
open Verif Verif.Config Verif.Config.Spec

theorem live_iff (r : Row) : live r = true ↔ Counts r := by
  unfold live Counts
  simp [and_assoc]

/-! ## The greatest part number -/

/-- The greatest part number among the records of a key. -/
def MaxOf (lower : Str → Str) (recs : List Row) (key : Str) : Option Int → Prop
  | none => ∀ r ∈ recs, lower r.name ≠ key
  | some m => (∃ r ∈ recs, lower r.name = key ∧ r.part = m) ∧ ∀ r ∈ recs, lower r.name = key → r.part ≤ m

theorem maxParts_spec (lower : Str → Str) (recs done : List Row) (m : List (Str × Int)) (key : Str)
    (h : MaxOf lower done key (find m key)) : MaxOf lower (done ++ recs) key (find (maxParts lower recs m) key) := by
  induction recs generalizing done m with
  | nil => simpa [maxParts] using h
  | cons r rs ih =>
    rw [maxParts, show done ++ r :: rs = (done ++ [r]) ++ rs by simp]
    apply ih
    rw [find_upd]
    by_cases hk : lower r.name = key
    · rw [if_pos hk, hk]
      cases hf : find m key with
      | none =>
        rw [hf] at h
        refine ⟨⟨r, by simp, hk, rfl⟩, fun x hx hxk => ?_⟩
        rcases List.mem_append.1 hx with hx | hx
        · exact absurd hxk (h x hx)
        · rw [List.mem_singleton.1 hx]; exact Int.le_refl _
      | some p =>
        rw [hf] at h
        obtain ⟨⟨x, hx, hxk, hxp⟩, h2⟩ := h
        simp only
        by_cases hp : p < r.part
        · rw [if_pos hp]
          refine ⟨⟨r, by simp, hk, rfl⟩, fun y hy hyk => ?_⟩
          rcases List.mem_append.1 hy with hy | hy
          · have := h2 y hy hyk; omega
          · rw [List.mem_singleton.1 hy]; exact Int.le_refl _
        · rw [if_neg hp]
          refine ⟨⟨x, by simp [hx], hxk, hxp⟩, fun y hy hyk => ?_⟩
          rcases List.mem_append.1 hy with hy | hy
          · exact h2 y hy hyk
          · rw [List.mem_singleton.1 hy]; omega
    · rw [if_neg hk]
      cases hf : find m key with
      | none =>
        rw [hf] at h
        intro x hx
        rcases List.mem_append.1 hx with hx | hx
        · exact h x hx
        · rw [List.mem_singleton.1 hx]; exact hk
      | some p =>
        rw [hf] at h
        obtain ⟨⟨x, hx, hxk, hxp⟩, h2⟩ := h
        refine ⟨⟨x, by simp [hx], hxk, hxp⟩, fun y hy hyk => ?_⟩
        rcases List.mem_append.1 hy with hy | hy
        · exact h2 y hy hyk
        · rw [List.mem_singleton.1 hy] at hyk; exact absurd hyk hk

/-! ## Filling the parts -/

/-- The last record of a key with part `i` among records that count. -/
def LastOf (lower : Str → Str) (recs : List Row) (key : Str) (i : Nat) (r : Row) : Prop :=
  ∃ before after, recs = before ++ r :: after ∧ lower r.name = key ∧ r.part = i ∧
    ∀ r' ∈ after, lower r'.name = key → r'.part ≠ i

theorem lastOf_snoc_other (lower : Str → Str) (recs : List Row) (key : Str) (i : Nat) (x : Row)
    (hx : ¬ (lower x.name = key ∧ x.part = i)) (r : Row) :
    LastOf lower (recs ++ [x]) key i r ↔ LastOf lower recs key i r := by
  constructor
  · rintro ⟨a, b, h1, h2, h3, h4⟩
    rcases List.eq_nil_or_concat b with rfl | ⟨b', y, rfl⟩
    · obtain ⟨_, h⟩ := List.append_inj' h1 rfl
      rw [(List.cons.inj h).1] at hx
      exact absurd ⟨h2, h3⟩ hx
    · rw [List.concat_eq_append] at h1 h4
      have h1' : recs ++ [x] = (a ++ r :: b') ++ [y] := by rw [h1]; simp
      obtain ⟨hd, _⟩ := List.append_inj' h1' rfl
      exact ⟨a, b', hd, h2, h3, fun f hf => h4 f (List.mem_append_left _ hf)⟩
  · rintro ⟨a, b, h1, h2, h3, h4⟩
    refine ⟨a, b ++ [x], by rw [h1]; simp, h2, h3, fun f hf hk hp => ?_⟩
    rcases List.mem_append.1 hf with hf | hf
    · exact h4 f hf hk hp
    · rw [List.mem_singleton.1 hf] at hk hp; exact hx ⟨hk, hp⟩

theorem lastOf_snoc_self (lower : Str → Str) (recs : List Row) (key : Str) (i : Nat) (x : Row)
    (hx : lower x.name = key ∧ x.part = i) (r : Row) : LastOf lower (recs ++ [x]) key i r ↔ r = x := by
  constructor
  · rintro ⟨a, b, h1, h2, h3, h4⟩
    rcases List.eq_nil_or_concat b with rfl | ⟨b', y, rfl⟩
    · obtain ⟨_, h⟩ := List.append_inj' h1 rfl
      exact (List.cons.inj h).1.symm
    · rw [List.concat_eq_append] at h1 h4
      have h1' : recs ++ [x] = (a ++ r :: b') ++ [y] := by rw [h1]; simp
      obtain ⟨_, hy⟩ := List.append_inj' h1' rfl
      have hy := (List.cons.inj hy).1
      exact absurd (by rw [← hy]; exact hx.2) (h4 y (by simp) (by rw [← hy]; exact hx.1))
  · rintro rfl
    exact ⟨recs, [], rfl, hx.1, hx.2, fun f hf => by cases hf⟩

/-- What the file of a key holds after the records `done`. -/
def Filled (lower : Str → Str) (done : List Row) (key : Str) (f : TFile) : Prop :=
  ∀ i, i < f.addr.length →
    (∀ r, LastOf lower done key i r → f.addr[i]? = some (r.start, r.length)) ∧
    ((∀ r, ¬ LastOf lower done key i r) → f.addr[i]? = some (0, 0))

theorem place_filled (lower : Str → Str) (done : List Row) (key : Str) (f : TFile) (r : Row)
    (hp : 0 ≤ r.part) (hlen : r.part.toNat < f.addr.length) (hk : lower r.name = key) (h : Filled lower done key f) :
    Filled lower (done ++ [r]) key (place r (some f)) ∧ (place r (some f)).addr.length = f.addr.length := by
  have ha : (place r (some f)).addr = f.addr.set r.part.toNat (r.start, r.length) := by
    simp only [place]; split <;> rfl
  unfold Filled
  rw [ha]
  refine ⟨fun i hi => ?_, by simp⟩
  rw [List.length_set] at hi
  by_cases hip : r.part.toNat = i
  · subst hip
    have hself : lower r.name = key ∧ r.part = (r.part.toNat : Nat) := ⟨hk, by omega⟩
    constructor
    · intro x hx
      rw [(lastOf_snoc_self lower done key _ r hself x).1 hx]
      rw [List.getElem?_set]
      simp [hlen]
    · intro hx
      exact absurd ((lastOf_snoc_self lower done key _ r hself r).2 rfl) (hx r)
  · have hother : ¬ (lower r.name = key ∧ r.part = i) := fun hh => hip (by omega)
    rw [List.getElem?_set_ne hip]
    have := h i hi
    constructor
    · intro x hx
      exact this.1 x ((lastOf_snoc_other lower done key i r hother x).1 hx)
    · intro hx
      exact this.2 (fun x hx' => hx x ((lastOf_snoc_other lower done key i r hother x).2 hx'))

theorem placeAll_filled (lower : Str → Str) (recs done : List Row) (m : List (Str × TFile)) (key : Str) (f : TFile)
    (hf : find m key = some f) (hp : ∀ r ∈ recs, lower r.name = key → 0 ≤ r.part ∧ r.part.toNat < f.addr.length)
    (h : Filled lower done key f) :
    ∃ g, find (placeAll lower recs m) key = some g ∧ Filled lower (done ++ recs) key g ∧
      g.addr.length = f.addr.length := by
  induction recs generalizing done m f with
  | nil => exact ⟨f, hf, by simpa using h, rfl⟩
  | cons r rs ih =>
    rw [placeAll, show done ++ r :: rs = (done ++ [r]) ++ rs by simp]
    by_cases hk : lower r.name = key
    · obtain ⟨h1, h2⟩ := hp r (by simp) hk
      obtain ⟨h3, h4⟩ := place_filled lower done key f r h1 h2 hk h
      obtain ⟨g, hg1, hg2, hg3⟩ := ih (done ++ [r]) (upd m (lower r.name) (place r)) (place r (some f))
        (by rw [find_upd, if_pos hk, hk, hf]) (fun x hx hxk => by rw [h4]; exact hp x (by simp [hx]) hxk) h3
      exact ⟨g, hg1, hg2, hg3.trans h4⟩
    · refine ih (done ++ [r]) _ f (by rw [find_upd, if_neg hk, hf]) (fun x hx hxk => hp x (by simp [hx]) hxk) ?_
      intro i hi
      have := h i hi
      have hother : ¬ (lower r.name = key ∧ r.part = (i : Int)) := fun hh => hk hh.1
      exact ⟨fun x hx => this.1 x ((lastOf_snoc_other lower done key i r hother x).1 hx),
        fun hx => this.2 (fun x hx' => hx x ((lastOf_snoc_other lower done key i r hother x).2 hx'))⟩

theorem placeAll_other (lower : Str → Str) (recs : List Row) (m : List (Str × TFile)) (key : Str)
    (h : ∀ r ∈ recs, lower r.name ≠ key) : find (placeAll lower recs m) key = find m key := by
  induction recs generalizing m with
  | nil => rfl
  | cons r rs ih =>
    rw [placeAll, ih _ (fun x hx => h x (by simp [hx])), find_upd, if_neg (h r (by simp))]

theorem filter_split {α : Type} (p : α → Bool) (l a : List α) (e : α) (b : List α) (h : l.filter p = a ++ e :: b) :
    ∃ a' b', l = a' ++ e :: b' ∧ a'.filter p = a ∧ b'.filter p = b ∧ p e = true := by
  obtain ⟨l1, l2, rfl, h1, h2⟩ := List.filter_eq_append_iff.1 h
  obtain ⟨l3, l4, rfl, h3, h4, h5⟩ := List.filter_eq_cons_iff.1 h2
  refine ⟨l1 ++ l3, l4, by simp, ?_, h5, h4⟩
  rw [List.filter_append, h1, List.filter_eq_nil_iff.2 h3, List.append_nil]

theorem lastOf_lastPart (lower : Str → Str) (rows : List Row) (name : Str) (i : Nat) (r : Row) :
    LastOf lower (rows.filter live) (lower name) i r ↔ LastPart lower rows name i r := by
  constructor
  · rintro ⟨a, b, h1, h2, h3, h4⟩
    obtain ⟨a', b', rfl, ha, hb, he⟩ := filter_split _ _ _ _ _ h1
    refine ⟨a', b', rfl, (live_iff r).1 he, h2, h3, fun x hx hc hn => h4 x ?_ hn⟩
    rw [← hb]; exact List.mem_filter.2 ⟨hx, (live_iff x).2 hc⟩
  · rintro ⟨a, b, rfl, h1, h2, h3, h4⟩
    refine ⟨a.filter live, b.filter live, ?_, h2, h3, fun x hx hn => ?_⟩
    · rw [List.filter_append, List.filter_cons_of_pos ((live_iff r).2 h1)]
    · obtain ⟨hx1, hx2⟩ := List.mem_filter.1 hx
      exact h4 x hx1 ((live_iff x).1 hx2) hn

/-! ## The theorems -/

theorem files_lookup (lower : Str → Str) (rows : List Row) (hneg : ∀ r ∈ rows, Counts r → 0 ≤ r.part) :
    ∃ files, tableFiles lower rows = .ok files ∧ ∀ name,
      ((∀ r ∈ rows, Counts r → lower r.name ≠ lower name) → getFile lower files name = none) ∧
      ((∃ r ∈ rows, Counts r ∧ lower r.name = lower name) →
        ∃ f, getFile lower files name = some f ∧
          (∃ r ∈ rows, Counts r ∧ lower r.name = lower name ∧ r.part + 1 = f.addr.length) ∧
          (∀ r ∈ rows, Counts r → lower r.name = lower name → r.part < f.addr.length) ∧
          ∀ i, i < f.addr.length → (∀ r, LastPart lower rows name i r → f.addr[i]? = some (r.start, r.length)) ∧
            ((∀ r, ¬ LastPart lower rows name i r) → f.addr[i]? = some (0, 0))) := by
  have hn : ¬ ((rows.filter live).any (fun r => decide (r.part < 0)) = true) := by
    simp only [List.any_eq_true, decide_eq_true_eq, not_exists, not_and]
    intro r hr
    obtain ⟨h1, h2⟩ := List.mem_filter.1 hr
    have := hneg r h1 ((live_iff r).1 h2)
    omega
  refine ⟨_, by rw [tableFiles, if_neg hn], fun name => ?_⟩
  have hm := maxParts_spec lower (rows.filter live) [] [] (lower name) (fun _ h => by cases h)
  rw [List.nil_append] at hm
  constructor
  · intro h
    unfold getFile
    rw [placeAll_other _ _ _ _ (fun r hr => by
      obtain ⟨h1, h2⟩ := List.mem_filter.1 hr
      exact h r h1 ((live_iff r).1 h2)), find_map]
    cases hf : find (maxParts lower (rows.filter live) []) (lower name) with
    | none => rfl
    | some x =>
      rw [hf] at hm
      obtain ⟨⟨r, hr, hk, _⟩, _⟩ := hm
      obtain ⟨h1, h2⟩ := List.mem_filter.1 hr
      exact absurd hk (h r h1 ((live_iff r).1 h2))
  · rintro ⟨r, hr, hc, hk⟩
    have hrl : r ∈ rows.filter live := List.mem_filter.2 ⟨hr, (live_iff r).2 hc⟩
    cases hf : find (maxParts lower (rows.filter live) []) (lower name) with
    | none => rw [hf] at hm; exact absurd hk (hm r hrl)
    | some x =>
      rw [hf] at hm
      obtain ⟨⟨r0, hr0, hk0, hp0⟩, hmax⟩ := hm
      obtain ⟨h1, h2⟩ := List.mem_filter.1 hr0
      have hx0 : 0 ≤ x := by rw [← hp0]; exact hneg r0 h1 ((live_iff r0).1 h2)
      have hlen : (newFile (lower name) x).addr.length = x.toNat + 1 := by
        simp only [newFile]; exact List.length_replicate ..
      obtain ⟨g, hg1, hg2, hg3⟩ := placeAll_filled lower (rows.filter live) [] _ (lower name) (newFile (lower name) x)
        (by rw [find_map, hf]; rfl)
        (fun y hy hyk => by
          obtain ⟨hy1, hy2⟩ := List.mem_filter.1 hy
          have := hneg y hy1 ((live_iff y).1 hy2)
          have := hmax y hy hyk
          rw [hlen]; omega)
        (fun i hi => ⟨fun r hr => absurd hr (fun ⟨a, b, hab, _⟩ => (by cases a <;> cases hab)),
          fun _ => by
            rw [hlen] at hi
            simp only [newFile]
            rw [List.getElem?_replicate, if_pos hi]⟩)
      rw [List.nil_append] at hg2
      refine ⟨g, hg1, ⟨r0, h1, (live_iff r0).1 h2, hk0, by rw [hg3, hlen]; omega⟩, fun y hy hyc hyk => ?_, fun i hi => ?_⟩
      · have := hmax y (List.mem_filter.2 ⟨hy, (live_iff y).2 hyc⟩) hyk
        rw [hg3, hlen]; omega
      · obtain ⟨hi1, hi2⟩ := hg2 i hi
        exact ⟨fun y hy => hi1 y ((lastOf_lastPart lower rows name i y).2 hy),
          fun hy => hi2 (fun z hz => hy z ((lastOf_lastPart lower rows name i z).1 hz))⟩

theorem readParts_append (readBlob : Nat → Nat → Outcome Bytes) (ps : List (Nat × Nat)) (s l : Nat) (acc : Bytes) :
    readParts readBlob (ps ++ [(s, l)]) acc = (do
      let b ← readParts readBlob ps acc
      let d ← readBlob s l
      .ok (b ++ d)) := by
  induction ps generalizing acc with
  | nil =>
    simp only [List.nil_append, readParts, Outcome.ok_bind]
  | cons p ps ih =>
    obtain ⟨a, b⟩ := p
    simp only [List.cons_append, readParts]
    cases readBlob a b with
    | ok d => simp only [Outcome.ok_bind]; exact ih _
    | throw => rfl
    | ub => rfl

/-- A stored file is found exactly when some record counts for its name, and its content is its parts in order, from
part 0 to the greatest number, each from its last record that counts. -/
theorem content_correct (lower : Str → Str) (rows : List Row) (readBlob : Nat → Nat → Outcome Bytes)
    (hzero : readBlob 0 0 = .ok []) (hneg : ∀ r ∈ rows, Counts r → 0 ≤ r.part)
    (hread : ∀ r ∈ rows, Counts r → ∃ d, readBlob r.start r.length = .ok d) :
    ∃ files, tableFiles lower rows = .ok files ∧ ∀ name,
      (getFile lower files name = none ↔ ∀ r ∈ rows, Counts r → lower r.name ≠ lower name) ∧
      ∀ f, getFile lower files name = some f →
        ∃ (n : Nat) (b : Bytes), (∃ r ∈ rows, Counts r ∧ lower r.name = lower name ∧ r.part + 1 = n) ∧
          (∀ r ∈ rows, Counts r → lower r.name = lower name → r.part < n) ∧
          readParts readBlob f.addr [] = .ok b ∧ Parts readBlob lower rows name n b := by
  obtain ⟨files, h1, h2⟩ := files_lookup lower rows hneg
  refine ⟨files, h1, fun name => ⟨⟨fun hnone => ?_, (h2 name).1⟩, fun f hf => ?_⟩⟩
  · intro r hr hc hk
    obtain ⟨f, hf, _⟩ := (h2 name).2 ⟨r, hr, hc, hk⟩
    rw [hnone] at hf; cases hf
  · have hex : ∃ r ∈ rows, Counts r ∧ lower r.name = lower name := by
      cases Classical.em (∃ r ∈ rows, Counts r ∧ lower r.name = lower name) with
      | inl h => exact h
      | inr h =>
        have := (h2 name).1 (fun r hr hc hk => h ⟨r, hr, hc, hk⟩)
        rw [hf] at this; cases this
    obtain ⟨f', hf', ha, hb, hc⟩ := (h2 name).2 hex
    rw [hf] at hf'
    cases hf'
    have key : ∀ n, n ≤ f.addr.length → ∃ b, readParts readBlob (f.addr.take n) [] = .ok b ∧ Parts readBlob lower rows name n b := by
      intro n
      induction n with
      | zero => intro _; exact ⟨[], rfl, .zero⟩
      | succ n ih =>
        intro hn
        obtain ⟨b, hb1, hb2⟩ := ih (by omega)
        obtain ⟨hl1, hl2⟩ := hc n (by omega)
        cases Classical.em (∃ r, LastPart lower rows name n r) with
        | inl h =>
          obtain ⟨r, hr⟩ := h
          have hmem := hr
          obtain ⟨x, y, hxy, hcr, _⟩ := hmem
          obtain ⟨d, hd⟩ := hread r (by rw [hxy]; simp) hcr
          refine ⟨b ++ d, ?_, .data n b d r hb2 hr hd⟩
          have := hl1 r hr
          rw [List.take_add_one, this]
          simp only [Option.toList_some]
          rw [readParts_append, hb1, Outcome.ok_bind, hd, Outcome.ok_bind]
        | inr h =>
          refine ⟨b, ?_, .gap n b hb2 (fun r hr => h ⟨r, hr⟩)⟩
          have := hl2 (fun r hr => h ⟨r, hr⟩)
          rw [List.take_add_one, this]
          simp only [Option.toList_some]
          rw [readParts_append, hb1, Outcome.ok_bind, hzero, Outcome.ok_bind, List.append_nil]
    obtain ⟨b, hb1, hb2⟩ := key f.addr.length (Nat.le_refl _)
    rw [List.take_length] at hb1
    exact ⟨f.addr.length, b, ha, hb, hb1, hb2⟩

/-- Reading blobs as modelled for properties C30 to C32 gives nothing for a part without a record. -/
theorem readBlob_zero (f : Bytes) (fuel : Nat) (hl : f.length < 2 ^ 32) (h : f.length % 256 = 0) :
    Blob.readBlobTable (some f) (fuel + 1) 0 0 = .ok (some []) := by
  simp only [Blob.readBlobTable]
  rw [if_neg (by simp), if_neg ?_]
  · simp [Blob.readLoop]
  · unfold Blob.shl8
    rw [Nat.mod_eq_of_lt hl]
    have : f.length / 256 * 256 = f.length := by omega
    rw [this, Nat.mod_eq_of_lt hl]
    simp

def sampleRows : List Row :=
  [⟨false, 3, 4, ['A'], 1, 0, 0⟩, ⟨false, 1, 2, ['a'], 0, 5, 6⟩, ⟨true, 7, 7, ['a'], 2, 0, 0⟩, ⟨false, 9, 1, [], 0, 0, 0⟩,
   ⟨false, 5, 2, ['A'], 1, 0, 0⟩, ⟨false, 8, 1, ['b'], 2, 0, 0⟩]

def sampleRead (s l : Nat) : Outcome Bytes := .ok (List.replicate l (UInt8.ofNat s))
def sampleLower (s : Str) : Str := s.map Char.toLower

def sampleContent (name : Str) : Outcome (Option Bytes) := do
  let files ← tableFiles sampleLower sampleRows
  match getFile sampleLower files name with
  | none => .ok none
  | some f => do
    let b ← readParts sampleRead f.addr []
    .ok (some b)

example : sampleContent ['a'] = .ok (some [1, 1, 5, 5]) ∧ sampleContent ['B'] = .ok (some [8]) ∧
    sampleContent ['c'] = .ok none := by decide

example : (∀ r ∈ sampleRows, Counts r → 0 ≤ r.part) ∧ sampleRead 0 0 = .ok [] := by
  refine ⟨?_, rfl⟩
  unfold Counts
  decide

/-- A record with a negative part number writes outside the list of parts. -/
theorem negative_part_ub (lower : Str → Str) (rows : List Row) (r : Row) (hr : r ∈ rows) (hc : Counts r) (hp : r.part < 0) :
    tableFiles lower rows = .ub := by
  simp only [tableFiles]
  rw [if_pos]
  rw [List.any_eq_true]
  exact ⟨r, List.mem_filter.2 ⟨hr, (live_iff r).2 hc⟩, by simpa using hp⟩

example : tableFiles sampleLower [⟨false, 1, 1, ['x'], -1, 0, 0⟩] = .ub := by decide

end Verif.Config.FilesTheorems
