import Verif.Record.SaveTheorems

/-! # Property theorems: where the end of a session goes wrong (C74) -/

namespace Verif.Record
open Verif

variable {X : Type}

/-! ## Deleting -/

/-- **C74, counterexample in general.** Deleting a record that is not the last one, in a
table whose records are longer than a record object: the store reads behind the
object. -/
theorem delete_long_ub {s : DSt X} {f : Bytes} {k : Nat} {mem : Bytes} (he : s.edit = true) (hd : s.data = some f)
    (hw : Spec.Whole ⟨f, s.reclen⟩ s.phys) (h5 : 5 ≤ s.reclen) (h0 : 0 < k) (hk : k + 1 < s.phys) (hm : mem.length < s.reclen) :
    deleteData s k mem = .ub := by
  have hb := record_bound hw (show 0 < s.phys by omega)
  dsimp only at hb
  have hg : Blob.getData f 0 4 = .ok (f.take 4) := by
    unfold Blob.getData; rw [if_pos (by omega), List.drop_zero]
  have hself := (blob_setData_self hg).1
  have htl : (f.take 4).length = 4 := by rw [List.length_take]; omega
  unfold deleteData
  rw [he, hd, if_neg (by decide)]
  dsimp only
  rw [if_neg (by omega), if_neg (by omega), if_neg (by omega), hg]
  simp only [Outcome.ok_bind]
  by_cases h4 : 4 ≤ mem.length
  · rw [store_ok (by omega), hself]
    simp only [Outcome.ok_bind]
    unfold writeData
    dsimp only
    rw [if_neg (by decide), if_neg (by omega), if_neg (by omega)]
    unfold load
    rw [if_neg]
    · rfl
    · simp only [List.length_append, List.length_take, List.length_drop]; omega
  · unfold store
    rw [if_neg (by omega)]
    rfl

theorem blob_setData_get {f b : Bytes} {off : Nat} (h : off + b.length ≤ f.length) (i : Nat) :
    (Blob.setData f off b)[i]? = if off ≤ i ∧ i < off + b.length then b[i - off]? else f[i]? := by
  rw [blob_setData_eq (by omega), stored_get _ _ _ h]

/-- Reading what a store did not touch. -/
theorem getData_frame {f g : Bytes} {off n : Nat} (hl : g.length = f.length) (h : ∀ i, off ≤ i → i < off + n → g[i]? = f[i]?) :
    Blob.getData g off n = Blob.getData f off n := by
  unfold Blob.getData
  rw [hl]
  split
  · rw [slice_ext h]
  · rfl

theorem getWord_frame {f g : Bytes} {off : Nat} (hl : g.length = f.length) (h : ∀ i, off ≤ i → i < off + 4 → g[i]? = f[i]?) :
    Blob.getWord g off = Blob.getWord f off := by
  unfold Blob.getWord
  rw [getData_frame hl h]

/-- **C74, counterexample in general.** A record deleted from the middle of a table without
free places leaves a place that is never used again: the next new record goes behind the
last one, as it would have before. -/
theorem deleted_place_is_lost {s s' : DSt X} {f : Bytes} {k : Nat} {mem : Bytes} (he : s.edit = true) (hd : s.data = some f)
    (hw : Spec.Whole ⟨f, s.reclen⟩ s.phys) (h5 : 5 ≤ s.reclen) (h0 : 0 < k) (hk : k + 1 < s.phys) (hm : s.reclen ≤ mem.length)
    (hc : Blob.getWord f 1 = .ok 0) (h : deleteData s k mem = .ok s') :
    ∃ f', s'.data = some f' ∧ newPlace f s.reclen = .ok (f, s.phys) ∧ newPlace f' s'.reclen = .ok (f', s.phys) := by
  have hb := record_bound hw (show k < s.phys by omega)
  obtain ⟨w1, w2, w3⟩ := hw
  dsimp only at hb w1 w2 w3
  rw [deleteData_inner he hd ⟨w1, w2, w3⟩ rfl h0 hk h5 hm] at h
  cases h
  have hb0 := mul_sep (r := s.reclen) h0
  have htl := tombstone_length (f := f) (mem := mem) (r := s.reclen) (by omega) hm (by omega)
  have hlen : (Blob.setData f (k * s.reclen) (tombstone f mem s.reclen)).length = f.length := blob_setData_length (by omega)
  have hpos : 0 < s.phys := by omega
  have hn : f.length / s.reclen % 2 ^ 32 = s.phys := by
    rw [w2, Nat.mul_div_cancel _ w1, Nat.mod_eq_of_lt]
    have := Nat.le_mul_of_pos_right s.phys w1
    omega
  refine ⟨Blob.setData f (k * s.reclen) (tombstone f mem s.reclen), rfl, ?_, ?_⟩
  rotate_left
  · unfold newPlace
    dsimp only
    rw [hlen, if_neg (by omega), getWord_frame hlen (by
      intro i h1 h2
      rw [blob_setData_get (by omega), if_neg (by omega)]), hc]
    simp only [Outcome.ok_bind, ne_eq, not_true, if_false]
    rw [if_neg (by omega), hn]
  · unfold newPlace
    rw [if_neg (by omega), hc]
    simp only [Outcome.ok_bind, ne_eq, not_true, if_false]
    rw [if_neg (by omega), hn]

/-- **C74, counterexample in general.** A blob field that can be null: the number of the
first block is taken one byte too early, from the null flag on. -/
theorem nullable_blob_start (r : Bytes) (off : Nat) (h : off + 5 ≤ r.length) (hf : r[off]? = some 1) :
    blobStart r off = .ok (1 + 256 * (Spec.wordAt r (off + 1) % 2 ^ 24)) := by
  rw [blobStart_ok (by omega)]
  unfold Spec.wordAt
  have h0 : r.getD off 0 = 1 := by rw [List.getD_eq_getElem?_getD, hf]; rfl
  rw [h0]
  have e1 : off + 1 + 1 = off + 2 := rfl
  have e2 : off + 1 + 2 = off + 3 := rfl
  rw [e1, e2]
  have b1 := (r.getD (off + 1) 0).toNat_lt
  have b2 := (r.getD (off + 2) 0).toNat_lt
  have b3 := (r.getD (off + 3) 0).toNat_lt
  have b4 := (r.getD (off + 1 + 3) 0).toNat_lt
  generalize (r.getD (off + 1) 0).toNat = x1 at *
  generalize (r.getD (off + 2) 0).toNat = x2 at *
  generalize (r.getD (off + 3) 0).toNat = x3 at *
  generalize (r.getD (off + 1 + 3) 0).toNat = x4 at *
  have : (x1 + 256 * x2 + 65536 * x3 + 16777216 * x4) % 2 ^ 24 = x1 + 256 * x2 + 65536 * x3 := by omega
  rw [this]
  show Outcome.ok (1 + 256 * x1 + 65536 * x2 + 16777216 * x3) = _
  congr 1
  omega

/-- … so that a record with such a field cannot be deleted, unless the blob file is so long
that some other blob is deleted instead. -/
theorem delete_nullable_blob_throws (ops : IxOps X) (fields pre post : List SField) (g : SField) (hfs : fields = pre ++ g :: post)
    (hpre : ∀ f ∈ pre, f.isBlob = false) (hg : g.isBlob = true) (fuel : Nat) (s : DSt X) (f fb r mem : Bytes) (k : Nat) (ix' : X)
    (he : s.edit = true) (hd : s.data = some f) (hw : Spec.Whole ⟨f, s.reclen⟩ s.phys) (hk : k < s.phys)
    (hr : r = Spec.record ⟨f, s.reclen⟩ k) (hl : Spec.Live ⟨f, s.reclen⟩ k) (hx : ops.del s.ix k r = .ok ix')
    (hin : g.slot.offset + 5 ≤ s.reclen) (hflag : r[g.slot.offset]? = some 1)
    (hb1 : Spec.wordAt r (g.slot.offset + 1) < 2 ^ 16) (hfb : s.blob = some fb)
    (hfl : fb.length ≤ 65536 * Spec.wordAt r (g.slot.offset + 1) + 256) :
    deleteRecord ops fields fuel s k mem = .throw := by
  have hrl : r.length = s.reclen := by rw [hr]; exact record_length hw hk
  unfold deleteRecord readRecord
  rw [hd]
  dsimp only
  rw [getRecord_ok hw hk, ← hr]
  simp only [Outcome.ok_bind]
  unfold dropIndexed isRemoved
  have := hw.1
  dsimp only at this
  have hrem : load r 0 1 = .ok [0] := by
    rw [load_ok (by omega), List.drop_zero]
    unfold Spec.Live at hl
    rw [← hr] at hl
    cases r with
    | nil => cases hl
    | cons a r => cases hl; rfl
  rw [hrem]
  simp only [Outcome.ok_bind, ne_eq, not_true, decide_false, Bool.false_eq_true, if_false]
  rw [hx]
  simp only [Outcome.ok_bind]
  have hskip : ∀ (pre : List SField), (∀ f ∈ pre, f.isBlob = false) → ∀ s' : DSt X,
      dropBlobs fuel r (pre ++ g :: post) s' = dropBlobs fuel r (g :: post) s' := by
    intro pre
    induction pre with
    | nil => intro _ _; rfl
    | cons p ps ih =>
      intro hp s'
      rw [List.cons_append, dropBlobs, if_neg (by rw [hp p (List.mem_cons_self ..)]; decide),
        ih (fun f hf => hp f (List.mem_cons_of_mem _ hf))]
  rw [hfs, hskip pre hpre, dropBlobs, if_pos hg, nullable_blob_start r _ (by omega) hflag]
  simp only [Outcome.ok_bind]
  generalize Spec.wordAt r (g.slot.offset + 1) = w at hb1 hfl
  have hw' : w % 2 ^ 24 = w := Nat.mod_eq_of_lt (by omega)
  rw [hw']
  unfold dropBlob
  dsimp only
  rw [if_neg (by omega), he, if_neg (by decide), hfb]
  unfold Blob.deleteBlob
  dsimp only
  rw [if_pos]
  · rfl
  · unfold Blob.shl8
    rw [Nat.mod_eq_of_lt (by omega)]
    omega

/-! ## Adding -/

/-- Fields that a new record may have without trouble. -/
theorem newFields_plain (fields : List SField) (h : ∀ f ∈ fields, f.isBlob = false ∧ f.type ≠ .version ∧ f.type ≠ .version8) (r : Bytes)
    (v : Nat × Nat) : newFields fields r v = .ok (r, v) := by
  induction fields with
  | nil => rfl
  | cons f fs ih =>
    obtain ⟨h1, h2, h3⟩ := h f (List.mem_cons_self ..)
    unfold newFields
    rw [h1, if_neg (by decide), if_neg h2, if_neg h3]
    exact ih (fun g hg => h g (List.mem_cons_of_mem _ hg))

theorem enterIndexed_ok {ops : IxOps X} {s : DSt X} {n : Nat} {r : Bytes} {ix' : X} (h0 : r.head? = some 0) (hx : ops.ins s.ix n r = .ok ix') :
    enterIndexed ops s n r = .ok { s with ix := ix' } := by
  unfold enterIndexed isRemoved
  have hrem : load r 0 1 = .ok [0] := by
    cases r with
    | nil => cases h0
    | cons a r => cases h0; rfl
  rw [hrem]
  simp only [Outcome.ok_bind, ne_eq, not_true, decide_false, Bool.false_eq_true, if_false]
  rw [hx]
  rfl

/-- **C74, counterexample in general.** What is stored for a new record is the memory of a
record object (two addresses and a number), whatever the record is; and the number of
records the table knows stays the same, so that a scan does not show the new one. -/
theorem insert_stores_memory (ops : IxOps X) (fields : List SField)
    (hfs : ∀ f ∈ fields, f.isBlob = false ∧ f.type ≠ .version ∧ f.type ≠ .version8) (s : DSt X) (f r mem : Bytes) (ix' : X)
    (he : s.edit = true) (hd : s.data = some f) (hw : Spec.Whole ⟨f, s.reclen⟩ s.phys) (h5 : 5 ≤ s.reclen) (hn : 0 < s.phys)
    (hm : s.reclen ≤ mem.length) (hc : Blob.getWord f 1 = .ok 0) (h0 : r.head? = some 0) (hx : ops.ins s.ix s.phys r = .ok ix') :
    ∃ s', insertRecord ops fields s r mem = .ok s' ∧ s'.data = some (f ++ mem.take s.reclen) ∧ s'.phys = s.phys ∧
      Spec.rows s' = Spec.rows s := by
  obtain ⟨w1, w2, w3⟩ := hw
  dsimp only at w1 w2 w3
  have hnp : f.length / s.reclen % 2 ^ 32 = s.phys := by
    rw [w2, Nat.mul_div_cancel _ w1, Nat.mod_eq_of_lt]
    have := Nat.le_mul_of_pos_right s.phys w1
    omega
  have hpl : newPlace f s.reclen = .ok (f, s.phys) := by
    have : s.reclen ≤ f.length := by rw [w2]; exact Nat.le_mul_of_pos_left _ hn
    unfold newPlace
    rw [if_neg (by omega), hc]
    simp only [Outcome.ok_bind, ne_eq, not_true, if_false]
    rw [if_neg (by omega), hnp]
  have hwr : writeData { s with data := some f } s.phys mem = .ok { s with data := some (f ++ mem.take s.reclen) } := by
    unfold writeData
    dsimp only
    rw [he, if_neg (by decide), if_neg (by omega), if_neg (by omega), load_ok (by omega), ← w2, Nat.mod_eq_of_lt w3]
    simp only [Outcome.ok_bind, List.drop_zero]
    unfold withZero
    dsimp only
    rw [if_neg (by omega), Blob.setData_end _ _ _ rfl]
  refine ⟨{ s with data := some (f ++ mem.take s.reclen), ix := ix' }, ?_, rfl, rfl, ?_⟩
  · unfold insertRecord
    rw [hd]
    dsimp only
    rw [newFields_plain fields hfs]
    simp only [Outcome.ok_bind]
    rw [hpl]
    simp only [Outcome.ok_bind]
    rw [hwr]
    simp only [Outcome.ok_bind]
    exact enterIndexed_ok (s := { s with data := some (f ++ mem.take s.reclen) }) h0 hx
  · unfold Spec.rows
    rw [hd]
    dsimp only
    have hrec : ∀ i ∈ List.range s.phys, Spec.record ⟨f ++ mem.take s.reclen, s.reclen⟩ i = Spec.record ⟨f, s.reclen⟩ i := by
      intro i hi
      have hi := List.mem_range.mp hi
      have := mul_sep (r := s.reclen) hi
      unfold Spec.record
      dsimp only
      apply slice_ext
      intro j h1 h2
      rw [List.getElem?_append_left (by omega)]
    generalize List.range s.phys = l at hrec
    induction l with
    | nil => rfl
    | cons i l ih =>
      have hi := hrec i (List.mem_cons_self ..)
      have ih := ih (fun j hj => hrec j (List.mem_cons_of_mem _ hj))
      by_cases hl : Spec.Live ⟨f, s.reclen⟩ i
      · rw [liveOf_cons_pos hl, liveOf_cons_pos ((live_congr hi).mpr hl), hi, ih]
      · rw [liveOf_cons_neg hl, liveOf_cons_neg (fun hh => hl ((live_congr hi).mp hh)), ih]

/-- … and when the table is opened again, the new record reads as that memory. -/
theorem insert_reads_memory (f mem : Bytes) (r n : Nat) (hw : Spec.Whole ⟨f, r⟩ n) (hm : r ≤ mem.length) (hl : f.length + r < 2 ^ 32) :
    physNum ⟨f ++ mem.take r, r⟩ = .ok (n + 1) ∧ getRecord ⟨f ++ mem.take r, r⟩ n = .ok (mem.take r) := by
  obtain ⟨w1, w2, w3⟩ := hw
  dsimp only at w1 w2 w3
  have hlen : (f ++ mem.take r).length = (n + 1) * r := by
    rw [List.length_append, List.length_take, Nat.min_eq_left hm, Nat.succ_mul, w2]
  have hw' : Spec.Whole ⟨f ++ mem.take r, r⟩ (n + 1) := by
    refine ⟨w1, hlen, ?_⟩
    dsimp only
    rw [hlen, Nat.succ_mul, ← w2]; exact hl
  refine ⟨(physNum_iff _ w1 _).mpr hw', ?_⟩
  rw [getRecord_ok hw' (Nat.lt_succ_self n)]
  unfold Spec.record
  dsimp only
  rw [← w2, List.drop_append_of_le_length (Nat.le_refl _), List.drop_length, List.nil_append,
    List.take_of_length_le (by rw [List.length_take]; omega)]

/-- **C74, counterexample in general.** A second record cannot be added in the same session
if the table has no free places: the first is stored, then an exception is thrown. -/
theorem second_insert_throws (ops : IxOps X) (fields : List SField)
    (hfs : ∀ f ∈ fields, f.isBlob = false ∧ f.type ≠ .version ∧ f.type ≠ .version8) (s s' : DSt X) (f r mem r2 mem2 : Bytes) (ix' : X)
    (he : s.edit = true) (hd : s.data = some f) (hw : Spec.Whole ⟨f, s.reclen⟩ s.phys) (h5 : 5 ≤ s.reclen) (hn : 0 < s.phys)
    (hm : s.reclen ≤ mem.length) (hc : Blob.getWord f 1 = .ok 0) (h0 : r.head? = some 0) (hx : ops.ins s.ix s.phys r = .ok ix')
    (hl : f.length + s.reclen < 2 ^ 32) (h : insertRecord ops fields s r mem = .ok s') :
    insertRecord ops fields s' r2 mem2 = .throw := by
  obtain ⟨w1, w2, w3⟩ := hw
  dsimp only at w1 w2 w3
  have hnp : f.length / s.reclen % 2 ^ 32 = s.phys := by
    rw [w2, Nat.mul_div_cancel _ w1, Nat.mod_eq_of_lt]
    have := Nat.le_mul_of_pos_right s.phys w1
    omega
  have hfl : s.reclen ≤ f.length := by rw [w2]; exact Nat.le_mul_of_pos_left _ hn
  have hpl : newPlace f s.reclen = .ok (f, s.phys) := by
    unfold newPlace
    rw [if_neg (by omega), hc]
    simp only [Outcome.ok_bind, ne_eq, not_true, if_false]
    rw [if_neg (by omega), hnp]
  have hwr : writeData { s with data := some f } s.phys mem = .ok { s with data := some (f ++ mem.take s.reclen) } := by
    unfold writeData
    dsimp only
    rw [he, if_neg (by decide), if_neg (by omega), if_neg (by omega), load_ok (by omega), ← w2, Nat.mod_eq_of_lt w3]
    simp only [Outcome.ok_bind, List.drop_zero]
    unfold withZero
    dsimp only
    rw [if_neg (by omega), Blob.setData_end _ _ _ rfl]
  have h' : insertRecord ops fields s r mem = .ok { s with data := some (f ++ mem.take s.reclen), ix := ix' } := by
    unfold insertRecord
    rw [hd]
    dsimp only
    rw [newFields_plain fields hfs]
    simp only [Outcome.ok_bind]
    rw [hpl]
    simp only [Outcome.ok_bind]
    rw [hwr]
    simp only [Outcome.ok_bind]
    exact enterIndexed_ok (s := { s with data := some (f ++ mem.take s.reclen) }) h0 hx
  rw [h'] at h
  cases h
  have hlen : (f ++ mem.take s.reclen).length = (s.phys + 1) * s.reclen := by
    rw [List.length_append, List.length_take, Nat.min_eq_left hm, Nat.succ_mul, w2]
  have hnp2 : (f ++ mem.take s.reclen).length / s.reclen % 2 ^ 32 = s.phys + 1 := by
    rw [hlen, Nat.mul_div_cancel _ w1, Nat.mod_eq_of_lt]
    have := Nat.le_mul_of_pos_right (s.phys + 1) w1
    rw [Nat.succ_mul, ← w2] at this
    omega
  have hc2 : Blob.getWord (f ++ mem.take s.reclen) 1 = .ok 0 := by
    rw [← hc]
    unfold Blob.getWord Blob.getData
    rw [if_pos (by rw [List.length_append]; omega), if_pos (by omega), List.drop_append_of_le_length (by omega),
      List.take_append_of_le_length (by rw [List.length_drop]; omega)]
  unfold insertRecord
  dsimp only
  rw [newFields_plain fields hfs]
  simp only [Outcome.ok_bind]
  unfold newPlace
  rw [if_neg (by rw [List.length_append]; omega), hc2]
  simp only [Outcome.ok_bind, ne_eq, not_true, if_false]
  rw [if_neg (by omega), hnp2]
  simp only [Outcome.ok_bind]
  unfold writeData
  dsimp only
  rw [he, if_neg (by decide), if_pos (by omega)]
  rfl

/-- **C74, counterexample in general.** No record can be added to a table with a blob field,
to a table without a data file, or to one whose records are longer than a record object,
without undefined behaviour. -/
theorem insert_ub (ops : IxOps X) (fields : List SField) (s : DSt X) (r mem : Bytes)
    (h : s.data = none ∨ (∃ f ∈ fields, f.isBlob = true) ∨ mem.length < s.reclen) : ∀ s', insertRecord ops fields s r mem ≠ .ok s' := by
  intro s' hs
  unfold insertRecord at hs
  cases hd : s.data with
  | none => rw [hd] at hs; cases hs
  | some f =>
    rw [hd] at hs
    simp only at hs
    rcases h with h | ⟨g, hg, hgb⟩ | h
    · rw [hd] at h; cases h
    · have : ∀ (fs : List SField) (r : Bytes) (v : Nat × Nat), g ∈ fs → ∀ x, newFields fs r v ≠ .ok x := by
        intro fs
        induction fs with
        | nil => intro _ _ h; cases h
        | cons a fs ih =>
          intro r v ha x hx
          unfold newFields at hx
          split at hx
          · cases hx
          · next hna =>
            have ha : g ∈ fs := by
              rcases List.mem_cons.mp ha with h | h
              · rw [← h] at hna; exact absurd hgb hna
              · exact h
            split at hx
            · cases hsd : setData r a.slot (verBytes v ++ verBytes v) with
              | ok r' => rw [hsd] at hx; exact ih _ _ ha x hx
              | throw => rw [hsd] at hx; cases hx
              | ub => rw [hsd] at hx; cases hx
            · split at hx
              · cases hsd : setData r a.slot (verBytes v) with
                | ok r' => rw [hsd] at hx; exact ih _ _ ha x hx
                | throw => rw [hsd] at hx; cases hx
                | ub => rw [hsd] at hx; cases hx
              · exact ih _ _ ha x hx
      cases hn : newFields fields r s.ver with
      | ok x => exact this fields r s.ver hg x hn
      | throw => rw [hn] at hs; cases hs
      | ub => rw [hn] at hs; cases hs
    · cases hn : newFields fields r s.ver with
      | throw => rw [hn] at hs; cases hs
      | ub => rw [hn] at hs; cases hs
      | ok x =>
        rw [hn] at hs
        simp only [Outcome.ok_bind] at hs
        cases hp : newPlace f s.reclen with
        | throw => rw [hp] at hs; cases hs
        | ub => rw [hp] at hs; cases hs
        | ok y =>
          rw [hp] at hs
          simp only [Outcome.ok_bind] at hs
          unfold writeData load at hs
          dsimp only at hs
          rw [if_neg (show ¬ 0 + s.reclen ≤ mem.length by omega)] at hs
          split at hs
          · cases hs
          · split at hs
            · cases hs
            · split at hs
              · cases hs
              · cases hs

/-- A free place is taken from the chain of removed records. -/
theorem new_place_reused (f : Bytes) (reclen n k : Nat) (hn : n ≠ 0) (h : Blob.getWord f 1 = .ok n)
    (hk : Blob.getWord f ((n * reclen + 1) % 2 ^ 32) = .ok k) (hf : f.length ≠ 0) :
    newPlace f reclen = .ok (Blob.setData f 1 (Object.le32 k), n) := by
  unfold newPlace
  rw [if_neg hf, h]
  simp only [Outcome.ok_bind]
  rw [if_pos hn, hk]
  rfl

/-! ## Changing -/

/-- **C74, counterexample in general.** Writing a changed record never comes to a defined
end. -/
theorem update_never_returns (ops : IxOps X) (fields : List SField) (fuel : Nat) (streams : Bytes → Bytes) (s : DSt X) (n : Nat)
    (rec : Bytes) (marks : List Bool) (mem : Bytes) (s' : DSt X) :
    updateRecord ops fields fuel streams s n rec marks mem ≠ .ok (some s') := by
  intro h
  unfold updateRecord at h
  cases h1 : readRecord s n with
  | throw => rw [h1] at h; cases h
  | ub => rw [h1] at h; cases h
  | ok orec =>
    rw [h1] at h
    simp only [Outcome.ok_bind] at h
    cases h2 : dropIndexed ops s n orec with
    | throw => rw [h2] at h; cases h
    | ub => rw [h2] at h; cases h
    | ok s1 =>
      rw [h2] at h
      simp only [Outcome.ok_bind] at h
      cases h3 : changeFields fuel streams rec fields marks orec s1 with
      | throw => rw [h3] at h; cases h
      | ub => rw [h3] at h; cases h
      | ok x =>
        rw [h3] at h
        simp only [Outcome.ok_bind] at h
        cases x with
        | none => cases h
        | some x =>
          simp only at h
          cases h4 : enterIndexed ops x.2 n x.1 with
          | throw => rw [h4] at h; cases h
          | ub => rw [h4] at h; cases h
          | ok s2 =>
            rw [h4] at h
            simp only [Outcome.ok_bind] at h
            cases h5 : writeData s2 n mem with
            | throw => rw [h5] at h; cases h
            | ub => rw [h5] at h; cases h
            | ok s3 => rw [h5] at h; cases h

/-! ## Concrete tables -/

/-- Records of 5 bytes: record 0, three records. -/
def sampleFile : Bytes := [1, 0, 0, 0, 0, 0, 11, 12, 13, 14, 0, 21, 22, 23, 24, 0, 31, 32, 33, 34]

/-- No indexes. -/
def noIx : IxOps Unit := ⟨fun _ _ _ => .ok (), fun _ _ _ => .ok ()⟩

def sampleSt : DSt Unit := ⟨some sampleFile, 5, 4, none, (), true, (7, 8)⟩

/-- The memory of a record object on a 64-bit platform. -/
def sampleMem : Bytes := [0xb0, 0x12, 0x40, 0x55, 0x55, 0x55, 0, 0, 0x20, 0x90, 0x40, 0x55, 0x55, 0x55, 0, 0, 5, 0, 0, 0, 0, 0, 0, 0]

def sampleEnv : SEnv Unit := ⟨noIx, [⟨⟨1, false, 4⟩, .binary⟩], 0, id, fun _ => sampleMem⟩

def sampleEdit : EEnv := ⟨⟨sampleFile, 5⟩, 4, [⟨⟨1, false, 4⟩, false⟩], false⟩

theorem sample_sound : Spec.Sound sampleEnv.fields sampleSt ⟨[], []⟩ := by
  refine ⟨rfl, ⟨sampleFile, rfl, ⟨by decide, by decide, by decide⟩, fun _ => by decide⟩, by decide, rfl, by decide, by decide, by decide⟩

example : Spec.rows sampleSt = [(1, [0, 11, 12, 13, 14]), (2, [0, 21, 22, 23, 24]), (3, [0, 31, 32, 33, 34])] := by decide

/-- The hypotheses of `end_of_deletions_partial` hold for a session that marks records 1, 2
and 3 and takes the mark of record 2 back. -/
example : ∃ t s' b' t', erun sampleEdit [.begin, .mark 1 .deleted, .mark 2 .deleted, .mark 3 .deleted, .mark 2 .notChanged] ⟨false, [], 0⟩ = .ok t ∧
    endEdit sampleEnv t sampleSt = .ok (some (s', t')) ∧ Spec.rows s' = [(2, [0, 21, 22, 23, 24])] ∧
    Spec.Sound sampleEnv.fields { s' with edit := true } b' := by
  have hr : erun sampleEdit [.begin, .mark 1 .deleted, .mark 2 .deleted, .mark 3 .deleted, .mark 2 .notChanged] ⟨false, [], 0⟩ =
      .ok ⟨true, [⟨3, .deleted, .null⟩, ⟨1, .deleted, .null⟩], 0⟩ := by decide
  obtain ⟨s', b', t', h1, h2, h3, _⟩ := end_of_deletions_partial sampleEnv (fun _ _ => True) (fun _ _ _ _ _ => ⟨(), rfl, trivial⟩)
    sampleEdit ⟨⟨by decide, by decide, by decide⟩, by unfold Spec.FieldsFit; decide⟩
    [.begin, .mark 1 .deleted, .mark 2 .deleted, .mark 3 .deleted, .mark 2 .notChanged]
    (by intro op hop; simp only [List.mem_cons, List.not_mem_nil, or_false] at hop; rcases hop with rfl | rfl | rfl | rfl | rfl <;> trivial)
    _ hr sampleSt ⟨[], []⟩ sample_sound rfl rfl rfl trivial
    (by intro g hg; cases hg) (fun _ => show 5 ≤ sampleMem.length by decide) (by intro n; rfl) (by
      intro n hn
      have : n = 1 ∨ n = 2 ∨ n = 3 := by
        simp only [List.foldl_cons, List.foldl_nil, Spec.eff, sampleEdit] at hn
        simp (config := { decide := true }) [Spec.View.idle] at hn
        omega
      rcases this with rfl | rfl | rfl <;> decide)
  refine ⟨_, s', b', t', hr, h1, ?_, h3⟩
  rw [h2]
  decide

/-- Adding one record stores the memory of the object; a second one is refused. -/
example : insertRecord noIx sampleEnv.fields sampleSt [0, 1, 2, 3, 4] sampleMem =
      .ok { sampleSt with data := some (sampleFile ++ [0xb0, 0x12, 0x40, 0x55, 0x55]) } ∧
    insertRecord noIx sampleEnv.fields { sampleSt with data := some (sampleFile ++ [0xb0, 0x12, 0x40, 0x55, 0x55]) } [0, 5, 6, 7, 8] sampleMem =
      .throw := by decide

/-- The record deleted from the middle: marked removed, the rest is what was in memory, and
the place is not entered in the chain. -/
example : deleteData sampleSt 2 sampleMem =
    .ok { sampleSt with data := some [1, 0, 0, 0, 0, 0, 11, 12, 13, 14, 1, 0, 0, 0, 0x55, 0, 31, 32, 33, 34] } := by decide

/-- A record with a blob field that can be null and whose blob is in block 1. -/
example : deleteRecord noIx [⟨⟨1, true, 8⟩, .image⟩] 9
    (⟨some ([1, 0, 0, 0, 0, 0, 0, 0, 0, 0] ++ [0, 1, 1, 0, 0, 0, 3, 0, 0, 0]), 10, 2, some (List.replicate 512 0), (), true, (0, 0)⟩ : DSt Unit)
    1 sampleMem = .throw :=
  delete_nullable_blob_throws noIx _ [] [] ⟨⟨1, true, 8⟩, .image⟩ rfl (by simp) rfl 9 _
    ([1, 0, 0, 0, 0, 0, 0, 0, 0, 0] ++ [0, 1, 1, 0, 0, 0, 3, 0, 0, 0]) (List.replicate 512 0) [0, 1, 1, 0, 0, 0, 3, 0, 0, 0] sampleMem 1 ()
    rfl rfl ⟨by decide, by decide, by decide⟩ (by decide) (by decide) (by decide) rfl (by decide) (by decide) (by decide) rfl (by
      rw [List.length_replicate]; decide)

end Verif.Record
