import Verif.Record.SaveSpec
import Verif.Record.EditTheorems
import Verif.Blob.MoreTheorems
import Mathlib.Data.List.Nodup
import Mathlib.Data.List.Flatten

/-! # Lemmas: writing the changes of a session -/

namespace Verif.Record
open Verif

variable {X : Type}

theorem blob_setData_eq {f : Bytes} {off : Nat} {b : Bytes} (h : off ≤ f.length) :
    Blob.setData f off b = f.take off ++ b ++ f.drop (off + b.length) := by
  unfold Blob.setData
  rw [show off - f.length = 0 by omega, List.replicate_zero, List.append_nil]

theorem blob_setData_length {f : Bytes} {off : Nat} {b : Bytes} (h : off + b.length ≤ f.length) :
    (Blob.setData f off b).length = f.length := by
  rw [blob_setData_eq (by omega)]
  exact stored_length _ _ _ h

/-- Writing back what is there. -/
theorem blob_setData_self {f b : Bytes} (h : Blob.getData f 0 4 = .ok b) : Blob.setData f 0 b = f ∧ b = f.take 4 ∧ 4 ≤ f.length := by
  unfold Blob.getData at h
  split at h
  · next h4 =>
    rw [List.drop_zero] at h
    cases h
    refine ⟨?_, rfl, by omega⟩
    rw [blob_setData_eq (by omega), List.take_zero, List.nil_append, List.length_take, Nat.zero_add,
      Nat.min_eq_left (by omega), List.take_append_drop]
  · cases h

theorem mul_sep {i k r : Nat} (h : i < k) : i * r + r ≤ k * r := by
  rw [← Nat.succ_mul]; exact Nat.mul_le_mul_right _ h

/-- The records after one of them was overwritten. -/
theorem record_setData {f b : Bytes} {r k : Nat} (hb : b.length = r) (hk : k * r + r ≤ f.length) (i : Nat) :
    Spec.record ⟨Blob.setData f (k * r) b, r⟩ i = if i = k then b else Spec.record ⟨f, r⟩ i := by
  rw [blob_setData_eq (by omega)]
  by_cases h : i = k
  · subst h
    rw [if_pos rfl]
    unfold Spec.record
    dsimp only
    rw [← hb] at hk ⊢
    exact stored_slice _ _ _ hk
  · rw [if_neg h]
    unfold Spec.record
    dsimp only
    apply slice_ext
    intro j h1 h2
    rw [stored_get _ _ _ (by omega), if_neg]
    rintro ⟨h3, h4⟩
    rcases Nat.lt_or_gt_of_ne h with h5 | h5
    · have := mul_sep (r := r) h5; omega
    · have := mul_sep (r := r) h5; omega

theorem live_congr {t t' : Tab} {i : Nat} (h : Spec.record t' i = Spec.record t i) : Spec.Live t' i ↔ Spec.Live t i := by
  unfold Spec.Live; rw [h]

/-- A table in which record `k` is gone and the others are as before. -/
theorem liveOf_without {t t' : Tab} (k : Nat) (l : List Nat) (hk : k ∈ l → ¬ Spec.Live t' k)
    (h : ∀ i ∈ l, i ≠ k → Spec.record t' i = Spec.record t i) :
    Spec.liveOf t' l = (Spec.liveOf t l).filter (fun x => x.1 ≠ k) := by
  induction l with
  | nil => rfl
  | cons i l ih =>
    have ih := ih (fun hh => hk (List.mem_cons_of_mem _ hh)) (fun j hj => h j (List.mem_cons_of_mem _ hj))
    by_cases hi : i = k
    · subst hi
      rw [liveOf_cons_neg (hk (List.mem_cons_self ..)), ih]
      by_cases hl : Spec.Live t i
      · rw [liveOf_cons_pos hl, List.filter_cons_of_neg (by simp)]
      · rw [liveOf_cons_neg hl]
    · have hr := h i (List.mem_cons_self ..) hi
      by_cases hl : Spec.Live t i
      · rw [liveOf_cons_pos hl, liveOf_cons_pos ((live_congr hr).mpr hl), List.filter_cons_of_pos (by simpa using hi), ih, hr]
      · rw [liveOf_cons_neg hl, liveOf_cons_neg (fun hh => hl ((live_congr hr).mp hh)), ih]

theorem mem_liveOf {t : Tab} {l : List Nat} {x : Nat × Bytes} :
    x ∈ Spec.liveOf t l ↔ x.1 ∈ l ∧ Spec.Live t x.1 ∧ x.2 = Spec.record t x.1 := by
  unfold Spec.liveOf
  simp only [List.mem_map, List.mem_filter, decide_eq_true_eq]
  constructor
  · rintro ⟨i, ⟨h1, h2⟩, rfl⟩
    exact ⟨h1, h2, rfl⟩
  · rintro ⟨h1, h2, h3⟩
    exact ⟨x.1, ⟨h1, h2⟩, by rw [← h3]⟩

theorem liveOf_fst_nodup (t : Tab) (l : List Nat) (hl : l.Nodup) : ((Spec.liveOf t l).map Prod.fst).Nodup := by
  unfold Spec.liveOf
  rw [List.map_map]
  have : (Prod.fst ∘ fun i => (i, Spec.record t i)) = (id : Nat → Nat) := rfl
  rw [this, List.map_id]
  exact hl.filter _

/-! ## The data file -/

theorem writeData_ok {s : DSt X} {f : Bytes} {n k : Nat} {mem : Bytes} (he : s.edit = true) (hd : s.data = some f)
    (hw : Spec.Whole ⟨f, s.reclen⟩ n) (hp : s.phys = n) (h0 : 0 < k) (hk : k < n) (hm : s.reclen ≤ mem.length) :
    writeData s k mem = .ok { s with data := some (Blob.setData f (k * s.reclen) (mem.take s.reclen)) } := by
  unfold writeData
  have hb := record_bound hw hk
  have := hw.2.2
  have hr := hw.1
  dsimp only at hb this hr
  rw [he, hd, if_neg (by decide), if_neg (by omega), if_neg (by omega)]
  dsimp only
  rw [load_ok (by omega), Nat.mod_eq_of_lt (by omega)]
  simp only [Outcome.ok_bind, List.drop_zero]
  unfold withZero
  rw [if_neg (by omega)]

/-- Deleting the last record. -/
theorem deleteData_last {s : DSt X} {f : Bytes} {n k : Nat} {mem : Bytes} (he : s.edit = true) (hd : s.data = some f)
    (hw : Spec.Whole ⟨f, s.reclen⟩ n) (hp : s.phys = n) (h0 : 0 < k) (hk : k + 1 = n) :
    deleteData s k mem = .ok { s with data := some (f.take (k * s.reclen)), phys := k } := by
  have hb := record_bound hw (show k < n by omega)
  have := hw.2.2
  have hr := hw.1
  dsimp only at hb this hr
  unfold deleteData
  rw [he, hd, if_neg (by decide)]
  dsimp only
  rw [if_neg (by omega), if_neg (by omega), if_pos (by omega), Nat.mod_eq_of_lt (by omega)]
  unfold setLen
  rw [show k * s.reclen - f.length = 0 by omega, List.replicate_zero, List.append_nil, show s.phys - 1 = k by omega]

/-- The memory of the object that is written for a deleted record. -/
def tombstone (f mem : Bytes) (r : Nat) : Bytes := (f.take 4 ++ mem.drop 4).take r

/-- Deleting another record. -/
theorem deleteData_inner {s : DSt X} {f : Bytes} {n k : Nat} {mem : Bytes} (he : s.edit = true) (hd : s.data = some f)
    (hw : Spec.Whole ⟨f, s.reclen⟩ n) (hp : s.phys = n) (h0 : 0 < k) (hk : k + 1 < n) (h5 : 5 ≤ s.reclen) (hm : s.reclen ≤ mem.length) :
    deleteData s k mem = .ok { s with data := some (Blob.setData f (k * s.reclen) (tombstone f mem s.reclen)) } := by
  have hb := record_bound hw (show 0 < n by omega)
  dsimp only at hb
  have hg : Blob.getData f 0 4 = .ok (f.take 4) := by
    unfold Blob.getData; rw [if_pos (by omega), List.drop_zero]
  have hself := (blob_setData_self hg).1
  have htl : (f.take 4).length = 4 := by rw [List.length_take]; omega
  unfold deleteData
  rw [he, hd, if_neg (by decide)]
  dsimp only
  rw [if_neg (by omega), if_neg (by omega), if_neg (by omega), hg]
  simp only [Outcome.ok_bind]
  rw [store_ok (by omega), hself]
  simp only [Outcome.ok_bind]
  rw [writeData_ok (s := { s with data := some f, edit := true }) (f := f) (n := n) rfl rfl hw hp h0 (by omega) (by
    simp only [List.length_append, List.length_take, List.length_drop]; omega)]
  simp only [List.take_zero, List.nil_append]
  rw [htl]
  rfl

theorem tombstone_length {f mem : Bytes} {r : Nat} (hf : 4 ≤ f.length) (hm : r ≤ mem.length) (hr : 4 ≤ r) :
    (tombstone f mem r).length = r := by
  unfold tombstone
  simp only [List.length_append, List.length_take, List.length_drop]; omega

theorem tombstone_head {f mem : Bytes} {r : Nat} (hf : 4 ≤ f.length) (hr : 0 < r) : (tombstone f mem r).head? = f.head? := by
  unfold tombstone
  cases f with
  | nil => simp at hf
  | cons a f =>
    cases r with
    | zero => omega
    | succ r => rfl

theorem record_head {t : Tab} (h : 0 < t.reclen) : (Spec.record t 0).head? = t.file.head? := by
  unfold Spec.record
  rw [Nat.zero_mul, List.drop_zero]
  cases t.file with
  | nil => simp
  | cons a l =>
    cases hr : t.reclen with
    | zero => omega
    | succ r => rfl

/-- What deleting does to the data file, whichever record it is. -/
theorem deleteData_ok {s : DSt X} {f : Bytes} {k : Nat} {mem : Bytes} (he : s.edit = true) (hd : s.data = some f)
    (hw : Spec.Whole ⟨f, s.reclen⟩ s.phys) (hz : ¬ Spec.Live ⟨f, s.reclen⟩ 0) (h0 : 0 < k) (hk : k < s.phys) (h5 : 5 ≤ s.reclen)
    (hm : k + 1 = s.phys ∨ s.reclen ≤ mem.length) :
    ∃ f' n', deleteData s k mem = .ok { s with data := some f', phys := n' } ∧ Spec.Whole ⟨f', s.reclen⟩ n' ∧
      n' = (if k + 1 = s.phys then k else s.phys) ∧ ¬ Spec.Live ⟨f', s.reclen⟩ 0 ∧
      Spec.record ⟨f', s.reclen⟩ 0 = Spec.record ⟨f, s.reclen⟩ 0 ∧
      Spec.liveOf ⟨f', s.reclen⟩ (List.range n') =
        (Spec.liveOf ⟨f, s.reclen⟩ (List.range s.phys)).filter (fun x => x.1 ≠ k) := by
  obtain ⟨w1, w2, w3⟩ := hw
  dsimp only at w1 w2 w3
  have hw : Spec.Whole ⟨f, s.reclen⟩ s.phys := ⟨w1, w2, w3⟩
  have hb := record_bound hw hk
  dsimp only at hb
  by_cases hlast : k + 1 = s.phys
  · have hrec : ∀ i, i < k → Spec.record ⟨f.take (k * s.reclen), s.reclen⟩ i = Spec.record ⟨f, s.reclen⟩ i := by
      intro i hi
      unfold Spec.record
      dsimp only
      apply slice_ext
      intro j h1 h2
      have := mul_sep (r := s.reclen) hi
      rw [List.getElem?_take, if_pos (by omega)]
    refine ⟨f.take (k * s.reclen), k, ?_, ?_, by rw [if_pos hlast], ?_, hrec 0 h0, ?_⟩
    · rw [deleteData_last he hd hw rfl h0 hlast]
    · refine ⟨w1, ?_, ?_⟩
      · dsimp only; rw [List.length_take]; omega
      · dsimp only; rw [List.length_take]; omega
    · rw [live_congr (hrec 0 h0)]; exact hz
    · rw [← hlast, List.range_succ]
      have : ∀ a b, Spec.liveOf ⟨f, s.reclen⟩ (a ++ b) = Spec.liveOf ⟨f, s.reclen⟩ a ++ Spec.liveOf ⟨f, s.reclen⟩ b := by
        intro a b; unfold Spec.liveOf; simp
      rw [this, List.filter_append]
      have h1 : Spec.liveOf ⟨f.take (k * s.reclen), s.reclen⟩ (List.range k) =
          (Spec.liveOf ⟨f, s.reclen⟩ (List.range k)).filter (fun x => x.1 ≠ k) := by
        apply liveOf_without
        · intro hh; simp at hh
        · intro i hi _
          exact hrec i (by simpa using hi)
      have h2 : (Spec.liveOf ⟨f, s.reclen⟩ [k]).filter (fun x => x.1 ≠ k) = [] := by
        rw [List.filter_eq_nil_iff]
        intro x hx
        have := (mem_liveOf.mp hx).1
        simp only [List.mem_cons, List.not_mem_nil, or_false] at this
        simp [this]
      rw [h1, h2, List.append_nil]
  · have hm : s.reclen ≤ mem.length := by
      rcases hm with h | h
      · exact absurd h hlast
      · exact h
    have hb0 := record_bound hw (show 0 < s.phys by omega)
    dsimp only at hb0
    have htl := tombstone_length (f := f) (mem := mem) (r := s.reclen) (by omega) hm (by omega)
    have hrec := record_setData (f := f) (r := s.reclen) (k := k) htl hb
    have h00 : Spec.record ⟨Blob.setData f (k * s.reclen) (tombstone f mem s.reclen), s.reclen⟩ 0 = Spec.record ⟨f, s.reclen⟩ 0 := by
      rw [hrec, if_neg (by omega)]
    refine ⟨Blob.setData f (k * s.reclen) (tombstone f mem s.reclen), s.phys, ?_, ?_, by rw [if_neg hlast], ?_, h00, ?_⟩
    · rw [deleteData_inner he hd hw rfl h0 (by omega) h5 hm]
    · have hl : (Blob.setData f (k * s.reclen) (tombstone f mem s.reclen)).length = f.length :=
        blob_setData_length (by omega)
      exact ⟨w1, by dsimp only; rw [hl]; exact w2, by dsimp only; rw [hl]; exact w3⟩
    · rw [live_congr h00]
      exact hz
    · apply liveOf_without
      · intro _ hl
        apply hz
        unfold Spec.Live at hl ⊢
        rw [hrec, if_pos rfl, tombstone_head (by omega) (by omega)] at hl
        rw [record_head (by exact w1)]
        exact hl
      · intro i _ hi
        rw [hrec, if_neg hi]

/-! ## The blob file -/

theorem blobStart_ok {r : Bytes} {off : Nat} (h : off + 4 ≤ r.length) : blobStart r off = .ok (Spec.wordAt r off) := by
  unfold blobStart
  rw [load_ok h]
  simp only [Outcome.ok_bind]
  unfold Object.rd32 Spec.wordAt
  have hd : ∀ i, i < 4 → ((r.drop off).take 4)[i]? = some (r.getD (off + i) 0) := by
    intro i hi
    rw [List.getElem?_take, if_pos hi, List.getElem?_drop, List.getD_eq_getElem?_getD, List.getElem?_eq_getElem (by omega)]
    rfl
  simp only [hd 0 (by omega), hd 1 (by omega), hd 2 (by omega), hd 3 (by omega), Nat.add_zero, Nat.zero_add]

/-- Different blobs begin with different blocks. -/
theorem firsts_nodup {f : Bytes} {b : Blob.Spec.State} (h : Blob.Spec.Represents f b) : (b.blobs.map (·.first)).Nodup := by
  obtain ⟨A, rfl, hA, hpos, hp0, hfree, hbl, hall⟩ := h.ex
  obtain ⟨hand, _, _⟩ := Blob.all_bounds hall hpos
  have h2 := (List.nodup_append.mp hand).2.1
  clear hall hand hfree hp0
  generalize b.blobs = l at hbl h2
  induction l with
  | nil => simp
  | cons e l ih =>
    rw [List.flatMap_cons, List.nodup_append] at h2
    rw [List.map_cons, List.nodup_cons]
    refine ⟨?_, ih (fun x hx => hbl x (List.mem_cons_of_mem _ hx)) h2.2.1⟩
    intro hm
    obtain ⟨e', he', hf'⟩ := List.mem_map.mp hm
    have head_mem : ∀ x ∈ e :: l, x.first ∈ x.chain := by
      intro x hx
      obtain ⟨g1, g2, _⟩ := hbl x hx
      cases hc : x.chain with
      | nil => rw [hc] at g2; exact absurd g2 g1
      | cons y ys => rw [hc] at g2; rw [g2.1]; exact List.mem_cons_self ..
    have a := head_mem e (List.mem_cons_self ..)
    have c := head_mem e' (List.mem_cons_of_mem _ he')
    rw [hf'] at c
    exact h2.2.2 _ a _ (List.mem_flatMap.mpr ⟨e', he', c⟩) rfl

/-- Deleting one blob of a table. -/
theorem dropBlob_ok {s : DSt X} {b : Blob.Spec.State} {n fuel : Nat} (he : s.edit = true) (hb : Spec.BlobFile s.blob b)
    (h0 : n ≠ 0) (hn : n ∈ b.blobs.map (·.first)) (hf : ∀ g, s.blob = some g → g.length / 256 ≤ fuel) :
    ∃ fb free', dropBlob fuel s n = .ok (some { s with blob := some fb }) ∧
      Spec.BlobFile (some fb) ⟨free', b.blobs.filter (fun e => e.first ≠ n)⟩ ∧ fb.length / 256 ≤ fuel := by
  obtain ⟨e, he1, he2⟩ := List.mem_map.mp hn
  unfold Spec.BlobFile at hb
  cases hs : s.blob with
  | none => rw [hs] at hb; simp only at hb; rw [hb] at he1; cases he1
  | some g =>
    rw [hs] at hb
    simp only at hb
    obtain ⟨l1, l2, hl⟩ := List.append_of_mem he1
    obtain ⟨g', d1, d2, d3⟩ := Blob.delete_blob_partial g b l1 l2 e hl hb.1 hb.2 fuel (hf g hs)
    rw [he2] at d1
    refine ⟨g', e.chain ++ b.free, ?_, ?_, by rw [d3]; exact hf g hs⟩
    · unfold dropBlob
      rw [if_neg h0, he, if_neg (by decide), hs, d1]
      rfl
    · have hnd := firsts_nodup hb.1
      rw [hl] at hnd ⊢
      simp only [List.map_append, List.map_cons] at hnd
      have hnd := List.nodup_append.mp hnd
      have hnd2 := List.nodup_cons.mp hnd.2.1
      have : (l1 ++ e :: l2).filter (fun x => x.first ≠ n) = l1 ++ l2 := by
        rw [List.filter_append, List.filter_cons_of_neg (by simp [he2])]
        congr 1
        · rw [List.filter_eq_self]
          intro x hx
          have := hnd.2.2 x.first (List.mem_map_of_mem hx) e.first (List.mem_cons_self ..)
          rw [he2] at this
          simpa using this
        · rw [List.filter_eq_self]
          intro x hx
          have : x.first ≠ e.first := fun hh => hnd2.1 (hh ▸ List.mem_map_of_mem hx)
          rw [he2] at this
          simpa using this
      rw [this]
      exact ⟨d2, by rw [d3]; exact hb.2⟩

theorem isBlob_decide (f : SField) : f.isBlob = decide (f.type = .image ∨ f.type = .string ∨ f.type = .text) := rfl

/-- Deleting the blobs of a record. -/
theorem dropBlobs_ok (fuel : Nat) (r : Bytes) (fields : List SField) :
    ∀ (s : DSt X) (b : Blob.Spec.State), s.edit = true → Spec.BlobFile s.blob b →
    (∀ f ∈ fields, f.isBlob = true → f.slot.nullable = false ∧ f.slot.offset + 8 ≤ r.length) →
    (Spec.blobsOf fields r).Nodup → (∀ n ∈ Spec.blobsOf fields r, n ∈ b.blobs.map (·.first)) →
    (∀ g, s.blob = some g → g.length / 256 ≤ fuel) →
    ∃ fb b', dropBlobs fuel r fields s = .ok (some { s with blob := fb }) ∧ Spec.BlobFile fb b' ∧
      b'.blobs = b.blobs.filter (fun e => decide (e.first ∉ Spec.blobsOf fields r)) ∧ (∀ g, fb = some g → g.length / 256 ≤ fuel) := by
  induction fields with
  | nil =>
    intro s b _ hb _ _ _ hf
    refine ⟨s.blob, b, rfl, hb, ?_, hf⟩
    simp [Spec.blobsOf]
  | cons f fs ih =>
    intro s b he hb hin hnd hk hf
    have hin' : ∀ g ∈ fs, g.isBlob = true → g.slot.nullable = false ∧ g.slot.offset + 8 ≤ r.length :=
      fun g hg => hin g (List.mem_cons_of_mem _ hg)
    unfold dropBlobs
    by_cases hbl : f.isBlob = true
    · obtain ⟨i1, i2⟩ := hin f (List.mem_cons_self ..) hbl
      rw [if_pos hbl, blobStart_ok (by omega)]
      simp only [Outcome.ok_bind]
      have hcons : Spec.blobsOf (f :: fs) r = if Spec.wordAt r f.slot.offset = 0 then Spec.blobsOf fs r
          else Spec.wordAt r f.slot.offset :: Spec.blobsOf fs r := by
        unfold Spec.blobsOf
        rw [List.filter_cons_of_pos (by rw [← isBlob_decide]; exact hbl), List.map_cons, i1]
        simp only [Bool.false_eq_true, if_false, Nat.add_zero]
        by_cases h : Spec.wordAt r f.slot.offset = 0
        · rw [if_pos h, List.filter_cons_of_neg (by simpa using h)]
        · rw [if_neg h, List.filter_cons_of_pos (by simpa using h)]
      by_cases h : Spec.wordAt r f.slot.offset = 0
      · rw [if_pos h] at hcons
        rw [hcons] at hnd hk ⊢
        unfold dropBlob
        rw [if_pos h]
        exact ih s b he hb hin' hnd hk hf
      · rw [if_neg h] at hcons
        rw [hcons] at hnd hk
        obtain ⟨n1, n2⟩ := List.nodup_cons.mp hnd
        obtain ⟨fb, free', d1, d2, d3⟩ := dropBlob_ok (fuel := fuel) he hb h (hk _ (List.mem_cons_self ..)) hf
        rw [d1]
        simp only [Outcome.ok_bind]
        obtain ⟨fb', b', e1, e2, e3, e4⟩ := ih { s with blob := some fb } _ he d2 hin' n2 (by
          intro n hn
          obtain ⟨e, h1, h2⟩ := List.mem_map.mp (hk n (List.mem_cons_of_mem _ hn))
          refine List.mem_map.mpr ⟨e, List.mem_filter.mpr ⟨h1, ?_⟩, h2⟩
          have : e.first ≠ Spec.wordAt r f.slot.offset := by rw [h2]; exact fun hh => n1 (hh ▸ hn)
          simpa using this) (by intro g hg; cases hg; exact d3)
        refine ⟨fb', b', e1, e2, ?_, e4⟩
        rw [e3, hcons]
        dsimp only
        rw [List.filter_filter]
        apply List.filter_congr
        intro x _
        simp only [ne_eq, decide_not, List.mem_cons, not_or, Bool.decide_and]
        exact Bool.and_comm _ _
    · rw [if_neg hbl]
      have hcons : Spec.blobsOf (f :: fs) r = Spec.blobsOf fs r := by
        unfold Spec.blobsOf
        rw [List.filter_cons_of_neg (by rw [← isBlob_decide]; exact hbl)]
      rw [hcons] at hnd hk ⊢
      exact ih s b he hb hin' hnd hk hf

end Verif.Record
