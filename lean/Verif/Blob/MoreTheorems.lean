import Verif.Blob.Theorems

/-! # Property theorems: reading arbitrary blob files, and the findings (C30, C31, C32) -/

namespace Verif.Blob
open Verif Object

/-! ## Non-vacuity of the theorems of `Verif.Blob.Theorems` -/

/-- A file with only block 0 is well-formed: no blobs, nothing free. -/
theorem empty_file (p : Bytes) (hl : p.length = 256) (hz : Object.Spec.word p 0 = some 0) : Spec.Represents p ⟨[], []⟩ :=
  ⟨[p], by simp, by simp [hl], by simp, ⟨p, rfl, hz⟩, rfl, by simp, by simp [Spec.State.all]⟩

theorem zeros_word (n : Nat) (h : 4 ≤ n) : Object.Spec.word (List.replicate n 0) 0 = some 0 := by
  unfold Object.Spec.word
  rw [List.getElem?_replicate, List.getElem?_replicate, List.getElem?_replicate, List.getElem?_replicate,
    if_pos (by omega), if_pos (by omega), if_pos (by omega), if_pos (by omega)]
  rfl

/-- Three stores and a deletion from an empty file: both remaining blobs read back. -/
example (d1 d2 d3 : Bytes) (h1 : 0 < d1.length ∧ d1.length < 1000) (h2 : 0 < d2.length ∧ d2.length < 1000)
    (h3 : 0 < d3.length ∧ d3.length < 1000) :
    ∃ f' s' live', runBlobs (2 ^ 24) (some (List.replicate 256 0)) [] [.store d1, .store d2, .remove 0, .store d3] =
        .ok (some (some f', live')) ∧ Spec.Represents f' s' ∧ s'.blobs.map (fun b => (b.first, b.data)) = live' ∧
      ∀ e ∈ live', readBlobObject f' (2 ^ 24) e.1 e.2.length = .ok (some e.2) := by
  refine blob_history_partial (2 ^ 24) (Nat.le_refl _) _ _ ⟨[], []⟩ [] (empty_file _ List.length_replicate (zeros_word _ (by decide))) rfl ?_ (by simp) ?_
  · intro d hd
    simp only [List.mem_cons, Op.store.injEq, reduceCtorEq, List.not_mem_nil, or_false, false_or] at hd
    rcases hd with rfl | rfl | rfl <;> (apply List.ne_nil_of_length_pos; omega)
  · simp only [List.map_cons, List.map_nil, List.sum_cons, List.sum_nil, Op.cost, List.length_replicate]
    omega

/-! ## C32: what a read returns -/

/-- **C32, exact length.** If the object reader returns normally, it returns exactly as many
bytes as it was asked for (unless it was asked for everything). -/
theorem read_object_exact (f : Bytes) (fuel start length : Nat) (d : Bytes) (hl : length ≠ 2 ^ 32 - 1)
    (h : readBlobObject f fuel start length = .ok (some d)) : d.length = length := by
  unfold readBlobObject at h
  split at h
  · cases h
  · simp only at h
    split at h
    · cases h
    · cases hr : readLoop f (f.length / 256 % 2 ^ 32) length fuel start [] with
      | ok r =>
        rw [hr] at h
        simp only [Outcome.ok_bind] at h
        cases r with
        | none => cases h
        | some acc =>
          simp only at h
          split at h
          · cases h
          · next hn =>
            simp only [Outcome.ok.injEq, Option.some.injEq] at h
            subst h
            simp only [ne_eq, hl, not_false_eq_true, true_and, Decidable.not_not] at hn
            exact hn
      | throw => rw [hr] at h; cases h
      | ub => rw [hr] at h; cases h

theorem readBlock_bound {f : Bytes} {nb cur nx : Nat} {d : Bytes} (h : readBlock f nb cur = .ok (nx, d)) : d.length ≤ 250 := by
  unfold readBlock at h
  split at h
  · cases h
  · cases hg : getData f (shl8 cur) 256 with
    | ok b =>
      rw [hg] at h
      simp only [Outcome.ok_bind] at h
      cases h1 : rd32 b 0 with
      | ok v =>
        rw [h1] at h
        simp only [Outcome.ok_bind] at h
        cases h2 : rd16 b 4 with
        | ok n =>
          rw [h2] at h
          simp only [Outcome.ok_bind] at h
          split at h
          · cases h
          · simp only [Outcome.ok.injEq, Prod.mk.injEq] at h
            rw [← h.2, List.length_take]
            omega
        | throw => rw [h2] at h; cases h
        | ub => rw [h2] at h; cases h
      | throw => rw [h1] at h; cases h
      | ub => rw [h1] at h; cases h
    | throw => rw [hg] at h; cases h
    | ub => rw [hg] at h; cases h

/-- **C32, bounded.** No read of any file collects more than 250 bytes beyond the length it
was asked for. -/
theorem read_bounded (f : Bytes) (nb length : Nat) : ∀ (fuel cur : Nat) (acc d : Bytes), acc.length ≤ length →
    readLoop f nb length fuel cur acc = .ok (some d) → d.length ≤ length + 250 := by
  intro fuel
  induction fuel with
  | zero => intro cur acc d _ h; cases h
  | succ fuel ih =>
    intro cur acc d hacc h
    rw [readLoop] at h
    split at h
    · simp only [Outcome.ok.injEq, Option.some.injEq] at h
      subst h; omega
    · cases hb : readBlock f nb cur with
      | ok r =>
        obtain ⟨nx, e⟩ := r
        have hbd := readBlock_bound hb
        rw [hb] at h
        simp only [Outcome.ok_bind] at h
        split at h
        · simp only [Outcome.ok.injEq, Option.some.injEq] at h
          subst h
          rw [List.length_append]; omega
        · next hn => exact ih nx _ d (by omega) h
      | throw => rw [hb] at h; cases h
      | ub => rw [hb] at h; cases h

/-- Every block says it holds at least one byte. -/
def NoEmptyBlock (f : Bytes) (nb : Nat) : Prop := ∀ x nx d, x ≠ 0 → readBlock f nb x = .ok (nx, d) → d ≠ []

/-- **C32, termination.** For every file without empty blocks, whatever its links, every
read ends (with a value or an error) after at most `length + 2` blocks. -/
theorem read_terminates_partial (f : Bytes) (nb length : Nat) (hf : NoEmptyBlock f nb) :
    ∀ (fuel cur : Nat) (acc : Bytes), acc.length ≤ length → length + 1 - acc.length < fuel → readLoop f nb length fuel cur acc ≠ .ok none := by
  intro fuel
  induction fuel with
  | zero => intro cur acc _ h; omega
  | succ fuel ih =>
    intro cur acc hacc hlt
    rw [readLoop]
    split
    · simp
    · next hc =>
      cases hb : readBlock f nb cur with
      | ok r =>
        obtain ⟨nx, e⟩ := r
        have hne := hf cur nx e hc hb
        have hpos := List.length_pos_iff.mpr hne
        simp only [Outcome.ok_bind]
        split
        · simp
        · next hn =>
          rw [List.length_append] at hn
          exact ih nx _ (by rw [List.length_append]; omega) (by rw [List.length_append]; omega)
      | throw => simp
      | ub => simp

/-- Non-vacuity: block 1 holds one byte and links to itself; a read of 5 bytes ends. -/
example : ∃ f : Bytes, NoEmptyBlock f 2 ∧ readLoop f 2 5 7 1 [] = .ok (some [9, 9, 9, 9, 9, 9]) := by
  refine ⟨List.replicate 256 0 ++ [1, 0, 0, 0, 1, 0, 9] ++ List.replicate 249 0, ?_, by decide +kernel⟩
  intro x nx d hx h
  unfold readBlock at h
  split at h
  · cases h
  · next hlt =>
    have : x = 1 := by omega
    subst this
    have he : getData (List.replicate 256 0 ++ [1, 0, 0, 0, 1, 0, 9] ++ List.replicate 249 (0 : UInt8)) (shl8 1) 256 =
        .ok ([1, 0, 0, 0, 1, 0, 9] ++ List.replicate 249 0) := by decide +kernel
    rw [he] at h
    simp only [Outcome.ok_bind] at h
    have h1 : rd32 ([1, 0, 0, 0, 1, 0, 9] ++ List.replicate 249 (0 : UInt8)) 0 = .ok 1 := by decide +kernel
    have h2 : rd16 ([1, 0, 0, 0, 1, 0, 9] ++ List.replicate 249 (0 : UInt8)) 4 = .ok 1 := by decide +kernel
    rw [h1, h2] at h
    simp only [Outcome.ok_bind] at h
    rw [if_neg (by decide)] at h
    simp only [Outcome.ok.injEq, Prod.mk.injEq] at h
    rw [← h.2]
    decide +kernel

/-- **C32, counterexample.** A chain of empty blocks that returns to its start is followed
for ever: for every number of turns the read of block 1 is still running, whatever
length (other than from block 0) was asked for. -/
theorem empty_cycle_never_ends : ∃ f : Bytes, f.length = 512 ∧ ∀ (length fuel : Nat), readBlobObject f fuel 1 length = .ok none := by
  refine ⟨List.replicate 256 0 ++ [1] ++ List.replicate 255 0, by simp only [List.length_append, List.length_replicate, List.length_cons, List.length_nil], ?_⟩
  intro length fuel
  have hb : readBlock (List.replicate 256 0 ++ [1] ++ List.replicate 255 (0 : UInt8)) 2 1 = .ok (1, []) := by decide +kernel
  have hl : ∀ fuel, readLoop (List.replicate 256 0 ++ [1] ++ List.replicate 255 (0 : UInt8)) 2 length fuel 1 [] = .ok none := by
    intro fuel
    induction fuel with
    | zero => rfl
    | succ n ih =>
      rw [readLoop, if_neg (by decide), hb]
      simp only [Outcome.ok_bind, List.append_nil, List.length_nil]
      rw [if_neg (by omega)]
      exact ih
  have hlen : (List.replicate 256 0 ++ [1] ++ List.replicate 255 (0 : UInt8)).length = 512 := by simp only [List.length_append, List.length_replicate, List.length_cons, List.length_nil]
  unfold readBlobObject
  rw [if_neg (by simp), hlen]
  simp only
  rw [if_neg (by decide), show 512 / 256 % 2 ^ 32 = 2 from rfl, hl]
  rfl

/-- **C32, counterexample.** The table reader only logs a wrong length: asked for 5 bytes of
a blob of 3 it returns the 3, asked for 2 it returns all 3. -/
theorem table_read_ignores_length : ∃ f : Bytes, readBlobTable (some f) 9 1 5 = .ok (some [7, 8, 9]) ∧
    readBlobTable (some f) 9 1 2 = .ok (some [7, 8, 9]) ∧ readBlobObject f 9 1 5 = .throw ∧ readBlobObject f 9 1 2 = .throw :=
  ⟨List.replicate 256 0 ++ [0, 0, 0, 0, 3, 0, 7, 8, 9] ++ List.replicate 247 0, by decide +kernel, by decide +kernel,
    by decide +kernel, by decide +kernel⟩

/-- **C32, counterexample in general.** The buffer reader writes past the caller's buffer
whenever a blob holds more bytes than the buffer (which has the length stated in the
record): the check comes after the copy. -/
theorem buffer_read_overflows {A : List Bytes} (h : Full A) (h24 : A.length ≤ 2 ^ 24) (cap : Nat) (l : List Nat) :
    ∀ (b : Nat) (d acc : Bytes) (fuel : Nat), Spec.Chain A b l → Spec.Content A l d → acc.length ≤ cap →
    cap < acc.length + d.length → l.length < fuel → readLoopBuf A.flatten A.length cap cap fuel b acc = .ub := by
  induction l with
  | nil =>
    intro b d acc fuel _ hd h1 h2 _
    have : d = [] := hd
    subst this
    simp at h2; omega
  | cons x xs ih =>
    intro b d acc fuel hc hd h1 h2 hf
    obtain ⟨rfl, h3, p, nx, h4, h5, h6⟩ := hc
    obtain ⟨d1, d2, rfl, h7, h8⟩ := hd
    cases fuel with
    | zero => simp at hf
    | succ fuel =>
      rw [List.length_append] at h2
      rw [readLoopBuf, if_neg h3, readBlock_ok h h24 h4 h5 h7]
      simp only [Outcome.ok_bind]
      by_cases hgt : (acc ++ d1).length > cap
      · rw [if_pos hgt]
      · rw [if_neg hgt, if_neg hgt]
        exact ih nx d2 _ fuel h6 h8 (by omega) (by rw [List.length_append]; omega) (by simp only [List.length_cons] at hf; omega)

theorem buffer_read_overflows_blob (f : Bytes) (s : Spec.State) (hr : Spec.Represents f s) (hlen : f.length < 2 ^ 32) (b : Spec.Entry)
    (hb : b ∈ s.blobs) (fuel cap : Nat) (hf : f.length / 256 ≤ fuel) (hcap : cap < b.data.length) :
    readBlobBuf (some f) fuel b.first cap cap = .ub := by
  obtain ⟨A, rfl, hA, hpos, hp0, hfree, hbl, hall⟩ := hr.ex
  have hfl := flatten_length hA
  obtain ⟨_, hal, _⟩ := all_bounds hall hpos
  have hcl := chain_length_le hb
  obtain ⟨b0, b1, b2⟩ := hbl b hb
  have h24 : A.length < 2 ^ 24 := by omega
  have hnb2 : A.flatten.length % 2 ^ 32 / 256 = A.length := by omega
  have hml : A.flatten.length % 2 ^ 32 = A.flatten.length := by omega
  unfold readBlobBuf
  rw [if_neg (by simp [b0])]
  simp only
  rw [hnb2, hml, shl8_of h24, if_neg (by omega)]
  exact buffer_read_overflows hA (by omega) cap _ _ _ [] _ b1 b2 (by simp) (by simpa using hcap) (by omega)

/-! ## C30: storing from a buffer -/

/-- What the buffer variant really stores: a last piece shorter than 250 bytes is zeroed. -/
def Spec.zeroTail (d : Bytes) : Bytes := d.take (d.length - d.length % 250) ++ List.replicate (d.length % 250) 0

theorem zeroTail_length (d : Bytes) : (Spec.zeroTail d).length = d.length := by
  unfold Spec.zeroTail
  simp
  omega

theorem zeroTail_drop (d : Bytes) (h : 250 ≤ d.length) : (Spec.zeroTail d).drop 250 = Spec.zeroTail (d.drop 250) ∧
    (Spec.zeroTail d).take 250 = d.take 250 := by
  unfold Spec.zeroTail
  rw [List.length_drop]
  have hm : (d.length - 250) % 250 = d.length % 250 := by omega
  rw [hm]
  constructor
  · rw [List.drop_append, List.length_take, List.drop_take]
    have : 250 - min (d.length - d.length % 250) d.length = 0 := by omega
    rw [this]
    have : d.length - d.length % 250 - 250 = d.length - 250 - d.length % 250 := by omega
    rw [this]
    simp
  · rw [List.take_append, List.length_take, List.take_take]
    have : 250 - min (d.length - d.length % 250) d.length = 0 := by omega
    rw [this]
    have : min 250 (d.length - d.length % 250) = 250 := by omega
    rw [this]
    simp

theorem writeLoop_chars (slack : Nat) (hs : 249 ≤ slack) : ∀ (n : Nat) (f : Bytes) (prev cur : Nat) (data : Bytes), data.length ≤ n →
    writeLoop (packChars slack) n f prev cur data = writeLoop packStream n f prev cur (Spec.zeroTail data) := by
  intro n
  induction n with
  | zero =>
    intro f prev cur data h
    have : data = [] := List.length_eq_zero_iff.mp (by omega)
    subst this
    rfl
  | succ n ih =>
    intro f prev cur data h
    have hl := zeroTail_length data
    by_cases hd : data = []
    · subst hd
      rfl
    · have hd' : Spec.zeroTail data ≠ [] := by
        apply List.ne_nil_of_length_pos
        rw [hl]
        exact List.length_pos_iff.mpr hd
      have hpos := List.length_pos_iff.mpr hd
      rw [writeLoop, writeLoop, if_neg hd, if_neg hd', hl]
      have hpack : packChars slack data = packStream (Spec.zeroTail data) := by
        unfold packChars packStream
        rw [hl]
        by_cases h250 : data.length < 250
        · rw [if_pos h250, if_pos (by omega)]
          have hm : data.length % 250 = data.length := Nat.mod_eq_of_lt h250
          unfold Spec.zeroTail
          rw [hm, Nat.sub_self, List.take_zero, List.nil_append, List.take_of_length_le (by simp; omega),
            List.replicate_append_replicate]
          congr 2; omega
        · rw [if_neg h250, (zeroTail_drop data (by omega)).2, show 250 - data.length = 0 by omega]
          simp
      rw [hpack]
      have hdrop : (Spec.zeroTail data).drop 250 = Spec.zeroTail (data.drop 250) := by
        by_cases h250 : data.length < 250
        · rw [List.drop_of_length_le (by omega), List.drop_of_length_le (by omega)]
          rfl
        · exact (zeroTail_drop data (by omega)).1
      rw [hdrop]
      simp only [ih _ _ _ (data.drop 250) (by rw [List.length_drop]; omega)]

/-- **C30, counterexample in general.** Storing from a caller's buffer stores the data with
its last `length % 250` bytes replaced by zeros (when the bytes behind the buffer may
be overwritten). For lengths divisible by 250 it is the correct function. -/
theorem store_chars (slack : Nat) (hs : 249 ≤ slack) (f? : Option Bytes) (data : Bytes) :
    writeBlob (packChars slack) f? data = writeBlob packStream f? (Spec.zeroTail data) := by
  have hl := zeroTail_length data
  by_cases hd : data = []
  · subst hd; rfl
  · have hd' : Spec.zeroTail data ≠ [] := by
      apply List.ne_nil_of_length_pos
      rw [hl]
      exact List.length_pos_iff.mpr hd
    unfold writeBlob
    rw [if_neg hd, if_neg hd', hl]
    cases f? with
    | none => rfl
    | some f => simp only [writeLoop_chars slack hs data.length _ _ _ data (Nat.le_refl _)]

/-- So the stored blob reads back wrong as soon as a byte of the tail is not zero. -/
theorem store_chars_reads_back_wrong (slack : Nat) (hs : 249 ≤ slack) (f : Bytes) (s : Spec.State) (hr : Spec.Represents f s)
    (data : Bytes) (hroom : f.length / 256 + (data.length + 249) / 250 < 2 ^ 24) (i : Nat)
    (hi : i < data.length) (htail : data.length - data.length % 250 ≤ i) (hnz : data[i]? ≠ some 0) (fuel : Nat) (hf : 2 ^ 24 ≤ fuel) :
    ∃ f' first d, writeBlob (packChars slack) (some f) data = .ok (some f', first) ∧
      readBlobObject f' fuel first data.length = .ok (some d) ∧ d ≠ data := by
  have hl := zeroTail_length data
  have hne : Spec.zeroTail data ≠ [] := by
    apply List.ne_nil_of_length_pos
    omega
  obtain ⟨f', first, chain, free', a1, a2, a3, a4⟩ := store_blob_partial f s hr (Spec.zeroTail data) hne (by rw [hl]; exact hroom)
  rw [hl] at a3
  obtain ⟨A, hA, hA2, _⟩ := a2.ex
  have hfl : f'.length = 256 * A.length := by rw [hA]; exact flatten_length hA2
  have hr' := (read_back_partial f' _ a2 (by omega) ⟨first, chain, Spec.zeroTail data⟩ (by simp) fuel (by omega) (by simp only; omega)).1
  simp only [hl] at hr'
  refine ⟨f', first, Spec.zeroTail data, by rw [store_chars slack hs]; exact a1, hr', ?_⟩
  intro he
  apply hnz
  rw [← he]
  unfold Spec.zeroTail
  rw [List.getElem?_append_right (by rw [List.length_take]; omega), List.getElem?_replicate, if_pos (by rw [List.length_take]; omega)]

/-- **C30, counterexample in general.** If nothing may be overwritten behind the caller's
buffer, storing data whose length is not divisible by 250 never returns normally from
the buffer variant. -/
theorem store_chars_overflows : ∀ (n : Nat) (f : Bytes) (prev cur : Nat) (data : Bytes), data.length % 250 ≠ 0 →
    ∀ r, writeLoop (packChars 0) n f prev cur data ≠ .ok r := by
  intro n
  induction n with
  | zero =>
    intro f prev cur data hm r
    rw [writeLoop, if_neg (by rintro rfl; simp at hm)]
    simp
  | succ n ih =>
    intro f prev cur data hm r
    rw [writeLoop, if_neg (by rintro rfl; simp at hm)]
    unfold packChars
    by_cases h : data.length < 250
    · rw [if_pos h, if_neg (by omega)]
      exact fun hh => by cases hh
    · rw [if_neg h]
      simp only [Outcome.ok_bind]
      cases nextFree (if prev ≠ 0 then setData f prev (le32 cur) else f) cur with
      | ok v =>
        simp only [Outcome.ok_bind]
        exact ih _ _ _ _ (by rw [List.length_drop]; omega) r
      | throw => exact fun hh => by cases hh
      | ub => exact fun hh => by cases hh

/-- The first blob of a table that has no blob file yet cannot be stored: the file is not
created and then used. -/
theorem store_without_file (pack : Bytes → Outcome Bytes) (data : Bytes) (hne : data ≠ []) : writeBlob pack none data = .ub := by
  unfold writeBlob
  rw [if_neg hne]

/-! ## C31: at 4 GiB -/

/-- Block numbers are turned into offsets in 32 bits: blocks 2^24 apart share an offset. -/
theorem offset_wraps (b : Nat) : shl8 (b + 2 ^ 24) = shl8 b := by
  unfold shl8
  omega

/-- **C31, counterexample.** In a blob file of exactly 4 GiB without free blocks, a blob of
at most 250 bytes is stored over block 0, which holds the head of the free chain; the
file does not grow, and the number returned is 2^24. -/
theorem full_file_store (f : Bytes) (hl : f.length = 2 ^ 32) (h0 : getWord f 0 = .ok 0) (data : Bytes) (hne : data ≠ [])
    (hs : data.length ≤ 250) :
    ∃ f', writeBlob packStream (some f) data = .ok (some f', 2 ^ 24) ∧ f'.length = f.length ∧
      f' = le32 (2 ^ 24) ++ le16 data.length ++ data ++ List.replicate (250 - data.length) 0 ++ f.drop 256 := by
  have hpl : (data ++ List.replicate (250 - data.length) (0 : UInt8)).length = 250 := by simp; omega
  have hset : ∀ (g b : Bytes) (off : Nat), off + b.length ≤ g.length → setData g off b = g.take off ++ b ++ g.drop (off + b.length) := by
    intro g b off h
    unfold setData
    rw [show off - g.length = 0 by omega, List.replicate_zero, List.append_nil]
  have hz : (le32 0).length = 4 := rfl
  have hw : (le16 data.length).length = 2 := rfl
  have hput : putBlock f (2 ^ 24) data.length (data ++ List.replicate (250 - data.length) 0) =
      le32 0 ++ le16 data.length ++ (data ++ List.replicate (250 - data.length) 0) ++ f.drop 256 := by
    unfold putBlock
    rw [show shl8 (2 ^ 24) = 0 from rfl]
    generalize le32 0 = z at *
    generalize le16 data.length = w at *
    generalize data ++ List.replicate (250 - data.length) (0 : UInt8) = r at *
    simp only [Nat.zero_add]
    have e1 : setData f 0 z = z ++ f.drop 4 := by rw [hset _ _ _ (by omega), hz, List.take_zero, List.nil_append, Nat.zero_add]
    have e2 : setData (z ++ f.drop 4) 4 w = z ++ w ++ f.drop 6 := by
      rw [hset _ _ _ (by rw [List.length_append, List.length_drop]; omega), hw, List.take_left' hz, ← hz, ← List.drop_drop,
        List.drop_left, List.drop_drop, hz]
    have e3 : setData (z ++ w ++ f.drop 6) 6 r = z ++ w ++ r ++ f.drop 256 := by
      have h6 : (z ++ w).length = 6 := by rw [List.length_append, hz, hw]
      rw [hset _ _ _ (by rw [List.length_append, List.length_drop]; omega), hpl, List.take_left' h6, ← h6, ← List.drop_drop,
        List.drop_left, List.drop_drop, h6]
    rw [e1, e2, e3]
  have hpack : packStream data = .ok (data ++ List.replicate (250 - data.length) 0) := by
    unfold packStream
    rw [List.take_of_length_le hs]
  have hlen2 : (le32 0 ++ le16 data.length ++ (data ++ List.replicate (250 - data.length) 0) ++ f.drop 256).length = 2 ^ 32 := by
    rw [List.length_append, List.length_append, List.length_append, hz, hw, hpl, List.length_drop]
    omega
  obtain ⟨m, hm⟩ : ∃ m, data.length = m + 1 := ⟨data.length - 1, by have := List.length_pos_iff.mpr hne; omega⟩
  refine ⟨setData (le32 0 ++ le16 data.length ++ (data ++ List.replicate (250 - data.length) 0) ++ f.drop 256) 0 (le32 (2 ^ 24)), ?_, ?_, ?_⟩
  · unfold writeBlob
    rw [if_neg hne]
    simp only [h0, Outcome.ok_bind, if_true]
    rw [hl, show (2 ^ 32 / 256 % 2 ^ 32 : Nat) = 2 ^ 24 from rfl]
    have hloop : writeLoop packStream data.length f 0 (2 ^ 24) data =
        .ok (le32 0 ++ le16 data.length ++ (data ++ List.replicate (250 - data.length) 0) ++ f.drop 256, 2 ^ 24) := by
      rw [hm, writeLoop, if_neg hne, hpack]
      simp only [Outcome.ok_bind]
      rw [if_neg (by simp)]
      have hnf : nextFree f (2 ^ 24) = .ok 0 := by
        unfold nextFree
        rw [show shl8 (2 ^ 24) = 0 from rfl, if_pos (by omega), h0]
      rw [hnf]
      simp only [Outcome.ok_bind, if_true]
      rw [Nat.min_eq_left hs, hput, List.drop_of_length_le (l := data) (by omega), writeLoop_nil, hlen2, hm]
    rw [hloop]
    simp only [Outcome.ok_bind]
    rw [show shl8 (2 ^ 24) = 0 from rfl, if_pos (by omega)]
  · rw [hset _ _ _ (by rw [hlen2]; decide), List.length_append, List.length_append, List.length_take, List.length_drop, hlen2, hl]
    simp [le32]
  · rw [hset _ _ _ (by rw [hlen2]; decide)]
    simp only [List.take_zero, List.nil_append, Nat.zero_add, List.append_assoc]
    rw [show (le32 (2 ^ 24)).length = (le32 0).length from rfl, List.drop_left]

/-- **C30.** The empty blob (no block, length 0) is read from every aligned file. -/
theorem read_empty (f : Bytes) (hlen : f.length < 2 ^ 32) (hal : f.length % 256 = 0) (fuel : Nat) :
    readBlobObject f (fuel + 1) 0 0 = .ok (some []) ∧ readBlobTable (some f) (fuel + 1) 0 0 = .ok (some []) := by
  have e : shl8 (f.length / 256 % 2 ^ 32) = f.length := by unfold shl8; omega
  have e' : shl8 (f.length % 2 ^ 32 / 256) = f.length % 2 ^ 32 := by unfold shl8; omega
  constructor
  · unfold readBlobObject
    dsimp only
    rw [if_neg (by simp), e, if_neg (by simp), readLoop, if_pos rfl]
    rfl
  · unfold readBlobTable
    dsimp only
    rw [if_neg (by simp), e', if_neg (by simp), readLoop, if_pos rfl]

/-- … and a start of 0 with another length is refused. -/
theorem read_null_start (f : Bytes) (fuel length : Nat) (h : length ≠ 0) :
    readBlobObject f fuel 0 length = .throw ∧ readBlobTable (some f) fuel 0 length = .throw := by
  unfold readBlobObject readBlobTable
  rw [if_pos ⟨rfl, h⟩, if_pos ⟨rfl, h⟩]
  exact ⟨rfl, rfl⟩

/-- **C32.** The buffer reader behaves like the stream reader on every file if the buffer has
room for one block more than the length asked for. -/
theorem buffer_read_safe (f : Bytes) (nb length cap : Nat) (hcap : length + 250 ≤ cap) : ∀ (fuel cur : Nat) (acc : Bytes),
    acc.length ≤ length → readLoopBuf f nb length cap fuel cur acc = readLoop f nb length fuel cur acc := by
  intro fuel
  induction fuel with
  | zero => intro cur acc _; rfl
  | succ fuel ih =>
    intro cur acc hacc
    rw [readLoopBuf, readLoop]
    split
    · rfl
    · cases hb : readBlock f nb cur with
      | ok r =>
        obtain ⟨nx, e⟩ := r
        have hbd := readBlock_bound hb
        simp only [Outcome.ok_bind]
        rw [if_neg (by rw [List.length_append]; omega)]
        split
        · rfl
        · rename_i hle
          exact ih nx (acc ++ e) (by omega)
      | throw => rfl
      | ub => rfl

theorem readBlock_not_ub (f : Bytes) (nb cur : Nat) : readBlock f nb cur ≠ .ub := by
  unfold readBlock
  split
  · exact fun hh => by cases hh
  · unfold getData
    split
    · rename_i hle
      simp only [Outcome.ok_bind]
      generalize hx : (f.drop (shl8 cur)).take 256 = x
      have hxl : x.length = 256 := by rw [← hx, List.length_take, List.length_drop]; omega
      have h0 := List.getElem?_eq_getElem (l := x) (i := 0) (by omega)
      have h1 := List.getElem?_eq_getElem (l := x) (i := 1) (by omega)
      have h2 := List.getElem?_eq_getElem (l := x) (i := 2) (by omega)
      have h3 := List.getElem?_eq_getElem (l := x) (i := 3) (by omega)
      have h4 := List.getElem?_eq_getElem (l := x) (i := 4) (by omega)
      have h5 := List.getElem?_eq_getElem (l := x) (i := 5) (by omega)
      unfold rd32 rd16
      rw [h0, h1, h2, h3, h4, h5]
      simp only [Outcome.ok_bind]
      split <;> exact fun hh => by cases hh
    · exact fun hh => by cases hh

/-- **C32.** The stream readers access nothing outside the file, whatever it contains. -/
theorem stream_read_safe (f : Bytes) (nb length : Nat) : ∀ (fuel cur : Nat) (acc : Bytes), readLoop f nb length fuel cur acc ≠ .ub := by
  intro fuel
  induction fuel with
  | zero => intro cur acc hh; cases hh
  | succ fuel ih =>
    intro cur acc
    rw [readLoop]
    split
    · exact fun hh => by cases hh
    · cases hb : readBlock f nb cur with
      | ok r =>
        simp only [Outcome.ok_bind]
        split
        · exact fun hh => by cases hh
        · exact ih _ _
      | throw => exact fun hh => by cases hh
      | ub => exact absurd hb (readBlock_not_ub f nb cur)

end Verif.Blob
