import Verif.Object.ReadLemmas

/-! # Property theorems: reading internal files (C20, C21, C22, C24, C29) -/

namespace Verif.Object
open Verif

/-! ## What opening establishes -/

theorem word_lt (p : Bytes) (off v : Nat) (h : Spec.word p off = some v) : v < 2 ^ 32 := by
  unfold Spec.word at h
  simp only [Option.bind_eq_bind, Option.bind_eq_some_iff] at h
  obtain ⟨a, _, b, _, c, _, d, _, h⟩ := h
  have := a.toNat_lt; have := b.toNat_lt; have := c.toNat_lt; have := d.toNat_lt
  simp at h
  omega

theorem word_bound (p : Bytes) (off v : Nat) (h : Spec.word p off = some v) : off + 4 ≤ p.length := by
  unfold Spec.word at h
  simp only [Option.bind_eq_bind, Option.bind_eq_some_iff] at h
  obtain ⟨a, _, b, _, c, _, d, hd, _⟩ := h
  rcases Nat.lt_or_ge (off + 3) p.length with h | h
  · omega
  · rw [List.getElem?_eq_none h] at hd; simp at hd

theorem init_80 (pages : List Bytes) (P h : Nat) (o : Obj) (hne : h ≠ 1)
    (ho : init pages P false h = .ok o) :
    ∃ hp, pages[h]? = some hp ∧ o.kind = .data80 ∧ o.data = none ∧ Spec.word hp 8 = some o.len ∧
      o.numblocks = roundUp o.len 0x3ff000 ∧ o.blocks.length = o.numblocks ∧
      (∀ k, k < o.numblocks → o.blocks[k]? = Spec.word hp (24 + 4 * k)) ∧ o.block = h ∧
      Spec.word hp 12 = some o.ver1 ∧ Spec.word hp 16 = some o.ver2 ∧ o.recorded = false := by
  unfold init at ho
  obtain ⟨t, ht, ho⟩ := bind_ok' ho
  rw [getPage_ok] at ht
  simp only [if_true] at ho
  split at ho
  · cases ho
  · obtain ⟨len, hlen, ho⟩ := bind_ok' ho
    obtain ⟨v1, h1, ho⟩ := bind_ok' ho
    obtain ⟨v2, h2, ho⟩ := bind_ok' ho
    obtain ⟨bs, hbs, ho⟩ := bind_ok' ho
    cases ho
    obtain ⟨c1, c2⟩ := copyRoot_spec _ _ _ _ hbs
    exact ⟨t, ht, rfl, rfl, (rd32_word _ _ _).mp hlen, rfl, c1, c2, rfl, (rd32_word _ _ _).mp h1,
      (rd32_word _ _ _).mp h2, rfl⟩

theorem init_838 (pages : List Bytes) (P h : Nat) (o : Obj) (hne : h ≠ 1)
    (ho : init pages P true h = .ok o) :
    ∃ hp, pages[h]? = some hp ∧ o.kind = .data838 ∧ o.data = none ∧
      (∃ lo hi, Spec.word hp 16 = some lo ∧ Spec.word hp 20 = some hi ∧ o.len = lo + 2 ^ 32 * hi) ∧
      (∃ w, Spec.word hp 0 = some w ∧ o.fatlevel = w / 65536) ∧
      o.numblocks = (if o.fatlevel = 0 then roundUp o.len P else roundUp o.len (P / 4 * P)) ∧
      o.blocks.length = o.numblocks ∧
      (∀ k, k < o.numblocks → o.blocks[k]? = Spec.word hp (24 + 4 * k)) ∧ o.block = h := by
  unfold init at ho
  obtain ⟨t, ht, ho⟩ := bind_ok' ho
  rw [getPage_ok] at ht
  simp only [Bool.true_eq_false, if_false, if_neg hne] at ho
  split at ho
  · cases ho
  · obtain ⟨lo, hlo, ho⟩ := bind_ok' ho
    obtain ⟨hi, hhi, ho⟩ := bind_ok' ho
    obtain ⟨w, hw, ho⟩ := bind_ok' ho
    split at ho
    · cases ho
    · obtain ⟨v1, h1, ho⟩ := bind_ok' ho
      obtain ⟨v2, h2, ho⟩ := bind_ok' ho
      obtain ⟨bs, hbs, ho⟩ := bind_ok' ho
      cases ho
      obtain ⟨c1, c2⟩ := copyRoot_spec _ _ _ _ hbs
      exact ⟨t, ht, rfl, rfl, ⟨lo, hi, (rd32_word _ _ _).mp hlo, (rd32_word _ _ _).mp hhi, rfl⟩,
        ⟨w, (rd32_word _ _ _).mp hw, rfl⟩, rfl, c1, c2, rfl⟩

theorem lt_roundUp (i len unit : Nat) (hi : i < len) : i / unit < roundUp len unit := by
  unfold roundUp
  rw [if_neg (by omega)]
  have : i / unit ≤ (len - 1) / unit := Nat.div_le_div_right (by omega)
  omega

theorem gives_80 (pages : List Bytes) (P h : Nat) (o : Obj) (hne : h ≠ 1)
    (ho : init pages P false h = .ok o) (start : Nat) (bs : Bytes)
    (hin : start + bs.length ≤ o.len) (hb : Spec.Holds pages 4096 Spec.file80 h start bs) :
    ∀ i (hi : i < bs.length), Gives (tabPg pages 1023 4 o.blocks) 4096 (start + i) bs[i] := by
  obtain ⟨hp, h1, _, _, _, h5, h6, h7, _⟩ := init_80 pages P h o hne ho
  intro i hi
  refine tabPg_gives pages 4096 1023 4 h hp o.blocks 24 (start + i) _ h1 ?_ (hb i hi)
  apply h7
  rw [h5, Nat.div_div_eq_div_mul]
  exact lt_roundUp _ _ _ (by omega)

theorem gives_838_two (pages : List Bytes) (P h : Nat) (o : Obj) (hne : h ≠ 1)
    (ho : init pages P true h = .ok o) (hf : o.fatlevel ≠ 0) (start : Nat) (bs : Bytes)
    (hin : start + bs.length ≤ o.len) (hb : Spec.Holds pages P (Spec.file838two P) h start bs) :
    ∀ i (hi : i < bs.length), Gives (tabPg pages (P / 4) 0 o.blocks) P (start + i) bs[i] := by
  obtain ⟨hp, h1, _, _, _, _, h5, h6, h7, _⟩ := init_838 pages P h o hne ho
  intro i hi
  refine tabPg_gives pages P (P / 4) 0 h hp o.blocks 24 (start + i) _ h1 ?_ (hb i hi)
  apply h7
  rw [h5, if_neg hf, Nat.div_div_eq_div_mul, Nat.mul_comm P]
  exact lt_roundUp _ _ _ (by omega)

theorem gives_838_one (pages : List Bytes) (P h : Nat) (o : Obj) (hne : h ≠ 1)
    (ho : init pages P true h = .ok o) (hf : o.fatlevel = 0) (start : Nat) (bs : Bytes)
    (hin : start + bs.length ≤ o.len) (hb : Spec.Holds pages P Spec.file838one h start bs) :
    ∀ i (hi : i < bs.length), Gives (dirPg pages o.blocks) P (start + i) bs[i] := by
  obtain ⟨hp, h1, _, _, _, _, h5, h6, h7, _⟩ := init_838 pages P h o hne ho
  intro i hi
  refine dirPg_gives pages P h hp o.blocks 24 (start + i) _ h1 ?_ (hb i hi)
  apply h7
  rw [h5, if_pos hf]
  exact lt_roundUp _ _ _ (by omega)

/-- The block numbers of a file of the new format fit 32 bits. -/
theorem blocks_838 (pages : List Bytes) (P h : Nat) (o : Obj) (hne : h ≠ 1)
    (ho : init pages P true h = .ok o) (hP : 24 ≤ P) (hP2 : P ≤ 65536)
    (hpl : ∀ p, pages[h]? = some p → p.length = P) (i : Nat) (hi : i < o.len) : i / P < 2 ^ 32 := by
  obtain ⟨hp, h1, _, _, _, _, h5, h6, h7, _⟩ := init_838 pages P h o hne ho
  have hl := hpl hp h1
  have hnb : 0 < o.numblocks := by
    rw [h5]
    split <;> exact Nat.lt_of_le_of_lt (Nat.zero_le _) (lt_roundUp 0 o.len _ (by omega))
  have hroom : 4 * o.numblocks ≤ P := by
    have h8 := h7 (o.numblocks - 1) (by omega)
    rw [List.getElem?_eq_getElem (by omega)] at h8
    have := word_bound _ _ _ h8.symm
    omega
  by_cases hf : o.fatlevel = 0
  · rw [if_pos hf] at h5
    have := lt_roundUp i o.len P hi
    rw [← h5] at this
    omega
  · rw [if_neg hf] at h5
    have h9 := lt_roundUp i o.len (P / 4 * P) hi
    rw [← h5, Nat.mul_comm (P / 4), ← Nat.div_div_eq_div_mul] at h9
    have h10 : i / P < o.numblocks * (P / 4) := (Nat.div_lt_iff_lt_mul (by omega)).mp h9
    have h11 : o.numblocks * (P / 4) ≤ 16384 * 16384 := Nat.mul_le_mul (by omega) (by omega)
    omega

/-! ## C20: format 8.0 -/

/-- **C20.** Reading any non-empty range inside a file of format 8.0 returns exactly
the bytes its allocation tables describe. -/
theorem read_range_80 (pages : List Bytes) (P h : Nat) (o : Obj) (hne : h ≠ 1)
    (ho : init pages P false h = .ok o) (start : Nat) (bs : Bytes) (hb0 : bs ≠ [])
    (hin : start + bs.length ≤ o.len) (hb : Spec.Holds pages 4096 Spec.file80 h start bs) :
    getPart pages P o start bs.length = .ok bs := by
  obtain ⟨hp, h1, h2, h3, h4, h5, h6, h7, _⟩ := init_80 pages P h o hne ho
  have hlt := word_lt _ _ _ h4
  unfold getPart
  simp only [h3, h2]
  rw [if_neg (by
    rw [Nat.mod_eq_of_lt (by omega)]
    omega)]
  exact tabRead_spec pages 4096 1023 4 o.blocks start bs (by decide) (by decide) hb0 (by omega)
    (gives_80 pages P h o hne ho start bs hin hb)

/-- **C20.** Reading the whole file returns the same bytes, if the tables say they
have the entries the length needs; the object then keeps them. -/
theorem read_whole_80 (pages : List Bytes) (P h : Nat) (o : Obj) (hne : h ≠ 1)
    (ho : init pages P false h = .ok o) (bs : Bytes) (hb0 : bs ≠ []) (hlen : bs.length = o.len)
    (hb : Spec.Holds pages 4096 Spec.file80 h 0 bs) (hf : Spec.Filled80 pages h o.len) :
    getWhole pages P o = .ok (some bs, { o with data := some bs }) := by
  obtain ⟨hp, h1, h2, h3, h4, h5, h6, h7, _⟩ := init_80 pages P h o hne ho
  have hpos : 0 < bs.length := List.length_pos_iff.mpr hb0
  unfold getWhole wholeBytes
  simp only [h3, h2]
  rw [if_neg (by omega), List.take_of_length_le (by omega)]
  have hg := gives_80 pages P h o hne ho 0 bs (by omega) hb
  have := wholeLoop_spec pages 4096 1023 4 true (by decide) (by decide) (by decide) o.blocks 0 bs hb0
    (by simpa using hg) (by
      intro _ u tab _ hu htab
      simp only [Nat.zero_mul, Nat.zero_add] at hu ⊢
      rw [Nat.mul_assoc] at hu ⊢
      obtain ⟨c, hc1, hc2, hc3⟩ := hf u (by omega)
      refine ⟨c, ?_, hc2, ?_, ?_⟩
      · unfold Spec.tableCount at hc1
        simp only [Option.bind_eq_bind, Option.bind_eq_some_iff] at hc1
        obtain ⟨hp', e1, n, e2, tp, e3, e4⟩ := hc1
        rw [h1] at e1
        cases e1
        unfold tabOf at htab
        obtain ⟨tn, e5, e6⟩ := bind_ok' htab
        rw [idx_ok] at e5
        have hult : u < o.numblocks := by
          rcases Nat.lt_or_ge u o.blocks.length with h | h
          · omega
          · rw [List.getElem?_eq_none h] at e5; simp at e5
        rw [h7 u hult, e2] at e5
        cases e5
        rw [getPage_ok, e3] at e6
        cases e6
        exact e4
      · omega
      · rw [Nat.mul_assoc]
        intro hlt
        omega)
  simp only [List.drop_zero] at this
  rw [← hlen, this]
  rfl

/-- **C20.** A partial read equals the matching slice of the whole read, before and
after the whole read has been kept by the object. -/
theorem partial_is_slice_80 (pages : List Bytes) (P h : Nat) (o : Obj) (hne : h ≠ 1)
    (ho : init pages P false h = .ok o) (bs : Bytes) (hb0 : bs ≠ []) (hlen : bs.length = o.len)
    (hb : Spec.Holds pages 4096 Spec.file80 h 0 bs) (hf : Spec.Filled80 pages h o.len)
    (start n : Nat) (hn : 0 < n) (hin : start + n ≤ o.len) :
    ∃ o', getWhole pages P o = .ok (some bs, o') ∧
      getPart pages P o start n = .ok ((bs.drop start).take n) ∧
      getPart pages P o' start n = .ok ((bs.drop start).take n) := by
  refine ⟨_, read_whole_80 pages P h o hne ho bs hb0 hlen hb hf, ?_, ?_⟩
  · have hl : ((bs.drop start).take n).length = n := by simp; omega
    have := read_range_80 pages P h o hne ho start ((bs.drop start).take n)
      (by intro h; rw [h] at hl; simp at hl; omega) (by omega) (by
        intro i hi
        rw [hl] at hi
        have := hb (start + i) (by omega)
        simpa using this)
    rwa [hl] at this
  · simp only [getPart]
    rw [if_pos (by omega)]

/-! ## C21: format 8.3.8 -/

/-- **C21.** Reading a range of a file of format 8.3.8 with a one-level table. -/
theorem read_range_838_one (pages : List Bytes) (P h : Nat) (o : Obj) (hne : h ≠ 1)
    (ho : init pages P true h = .ok o) (hf : o.fatlevel = 0) (hP : 24 ≤ P) (hP2 : P ≤ 65536)
    (hpl : ∀ p, pages[h]? = some p → p.length = P) (h64 : o.len < 2 ^ 64)
    (start : Nat) (bs : Bytes) (hin : start + bs.length ≤ o.len)
    (hb : Spec.Holds pages P Spec.file838one h start bs) :
    getPart pages P o start bs.length = .ok bs := by
  obtain ⟨hp, h1, h2, h3, _⟩ := init_838 pages P h o hne ho
  unfold getPart
  simp only [h3, h2]
  rw [if_neg (by rw [Nat.mod_eq_of_lt (by omega)]; omega), if_neg (by simp [hf])]
  by_cases hb0 : bs = []
  · subst hb0
    simp [dirRead, dirLoop]
  · have hpos : 0 < bs.length := List.length_pos_iff.mpr hb0
    exact dirRead_spec pages P o.blocks start bs (by omega)
      (blocks_838 pages P h o hne ho hP hP2 hpl start (by omega))
      (gives_838_one pages P h o hne ho hf start bs hin hb)

/-- **C21.** Reading a range of a file of format 8.3.8 with a two-level table. -/
theorem read_range_838_two (pages : List Bytes) (P h : Nat) (o : Obj) (hne : h ≠ 1)
    (ho : init pages P true h = .ok o) (hf : o.fatlevel ≠ 0) (hP : 24 ≤ P) (hP2 : P ≤ 65536)
    (hpl : ∀ p, pages[h]? = some p → p.length = P) (h64 : o.len < 2 ^ 64)
    (start : Nat) (bs : Bytes) (hb0 : bs ≠ []) (hin : start + bs.length ≤ o.len)
    (hb : Spec.Holds pages P (Spec.file838two P) h start bs) :
    getPart pages P o start bs.length = .ok bs := by
  obtain ⟨hp, h1, h2, h3, _⟩ := init_838 pages P h o hne ho
  have hpos : 0 < bs.length := List.length_pos_iff.mpr hb0
  unfold getPart
  simp only [h3, h2]
  rw [if_neg (by rw [Nat.mod_eq_of_lt (by omega)]; omega), if_pos hf]
  exact tabRead_spec pages P (P / 4) 0 o.blocks start bs (by omega) (by omega) hb0
    (blocks_838 pages P h o hne ho hP hP2 hpl start (by omega))
    (gives_838_two pages P h o hne ho hf start bs hin hb)

/-- **C21.** Whole reads of both kinds. -/
theorem read_whole_838 (pages : List Bytes) (P h : Nat) (o : Obj) (hne : h ≠ 1)
    (ho : init pages P true h = .ok o) (hP : 24 ≤ P) (hP2 : P ≤ 65536) (bs : Bytes) (hb0 : bs ≠ [])
    (hlen : bs.length = o.len)
    (hb : Spec.Holds pages P (if o.fatlevel = 0 then Spec.file838one else Spec.file838two P) h 0 bs) :
    getWhole pages P o = .ok (some bs, { o with data := some bs }) := by
  obtain ⟨hp, h1, h2, h3, _, _, h5, h6, _⟩ := init_838 pages P h o hne ho
  have hpos : 0 < bs.length := List.length_pos_iff.mpr hb0
  unfold getWhole wholeBytes
  simp only [h3, h2]
  rw [if_neg (by omega), List.take_of_length_le (by omega)]
  by_cases hf : o.fatlevel = 0
  · rw [if_pos hf] at hb
    have hg := gives_838_one pages P h o hne ho hf 0 bs (by omega) hb
    have := wholeDir_spec pages P (by omega) o.blocks 0 bs (by simpa using hg) hb0
    rw [List.drop_zero, hlen] at this
    simp only [hf, ne_eq, not_true_eq_false, if_false, this]
    rfl
  · rw [if_neg hf] at hb
    have hg := gives_838_two pages P h o hne ho hf 0 bs (by omega) hb
    have := wholeLoop_spec pages P (P / 4) 0 false (by omega) (by omega) (by omega) o.blocks 0 bs hb0
      (by simpa using hg) (by simp)
    rw [List.drop_zero, hlen] at this
    simp only [ne_eq, hf, not_false_eq_true, if_true, this]
    rfl

/-! ## C22: reads outside the file -/

/-- **C22.** A read that ends after the end of the file is refused, as long as
the object has not kept the whole file in memory and start plus length fits 64 bits. -/
theorem read_outside_refused_partial (pages : List Bytes) (P : Nat) (o : Obj) (start n : Nat)
    (hk : o.kind ≠ .free838) (hd : o.data = none) (h64 : start + n < 2 ^ 64)
    (hout : start + n > getLen o) : getPart pages P o start n = .throw := by
  unfold getLen at hout
  unfold getPart
  simp only [hd]
  rw [Nat.mod_eq_of_lt h64]
  cases hkk : o.kind with
  | free838 => exact absurd hkk hk
  | free80 => simp only [hkk, if_true] at hout; simp only []; rw [if_pos hout]
  | data80 => simp [hkk] at hout; simp only []; rw [if_pos hout]
  | data838 => simp [hkk] at hout; simp only []; rw [if_pos hout]

/-- **C22 is false after a whole read**: every read past the end of the kept copy is
undefined behaviour instead of an exception. -/
theorem read_outside_cached_unchecked (pages : List Bytes) (P : Nat) (o o' : Obj) (d : Bytes)
    (start n : Nat) (hw : getWhole pages P o = .ok (some d, o')) (hout : start + n > d.length) :
    getPart pages P o' start n = .ub := by
  have : o'.data = some d := by
    unfold getWhole at hw
    split at hw
    · simp at hw
    · split at hw
      · simp at hw; obtain ⟨rfl, rfl⟩ := hw; assumption
      · obtain ⟨d', _, hw⟩ := bind_ok' hw
        simp at hw
        obtain ⟨rfl, rfl⟩ := hw
        rfl
  simp only [getPart, this]
  rw [if_neg (by omega)]

/-- **C22 is false for a length that wraps**: start 2^64 - 1 with length 2 passes the
check of any file of format 8.0 with at least one byte. -/
theorem read_outside_wraps :
    let o : Obj := ⟨.data80, 2, 100, 1, 1, 0, [3], none, 0, 0, 1, 0, false⟩
    getPart [[], [], [], []] 4096 o (2 ^ 64 - 1) 2 = .ub := by
  decide

/-- Reading nothing at the end of a file of format 8.0 whose length is a multiple of
the 4190208 bytes one table covers (an empty file in particular) indexes past the
end of the root table. -/
theorem read_nothing_is_ub (pages : List Bytes) (P h : Nat) (o : Obj) (hne : h ≠ 1)
    (ho : init pages P false h = .ok o) (hm : o.len % 0x3ff000 = 0) :
    getPart pages P o o.len 0 = .ub := by
  obtain ⟨hp, h1, h2, h3, h4, h5, h6, h7, _⟩ := init_80 pages P h o hne ho
  have hlt := word_lt _ _ _ h4
  unfold getPart
  simp only [h3, h2]
  rw [if_neg (by rw [Nat.mod_eq_of_lt (by omega)]; omega)]
  unfold tabRead
  have : idx o.blocks (o.len / 4096 % 2 ^ 32 / 1023) = .ub := by
    unfold idx
    rw [List.getElem?_eq_none]
    rw [h6, h5, roundUp]
    split <;> omega
  simp only [this, Outcome.ub_bind]

/-! ## C24: physical offsets -/

theorem flatten_get (pages : List Bytes) (P n r : Nat) (hpl : ∀ p ∈ pages, p.length = P) (hr : r < P) :
    pages.flatten[n * P + r]? = (pages[n]?).bind (fun p => p[r]?) := by
  induction pages generalizing n with
  | nil => simp
  | cons p ps ih =>
    have hp := hpl p (by simp)
    rw [List.flatten_cons]
    cases n with
    | zero => rw [List.getElem?_append_left (by omega)]; simp
    | succ n =>
      rw [List.getElem?_append_right (by rw [hp, Nat.add_mul]; omega)]
      rw [show (n + 1) * P + r - p.length = n * P + r by rw [hp, Nat.add_mul]; omega]
      rw [ih n (fun q hq => hpl q (by simp [hq]))]
      simp

/-- **C24.** For an offset below 4 GiB, the reported position in the database file is
where the byte of the internal file at that offset is stored. -/
theorem file_offset_correct_partial (pages : List Bytes) (P h : Nat) (o : Obj) (hne : h ≠ 1) (is838 : Bool)
    (ho : init pages P is838 h = .ok o) (hP : 24 ≤ P) (h80 : is838 = false → P = 4096)
    (hpl : ∀ p ∈ pages, p.length = P) (i : Nat) (hi : i < o.len) (h32 : i < 2 ^ 32) (x : UInt8)
    (hx : Spec.byteAt pages P (if is838 then (if o.fatlevel = 0 then Spec.file838one else Spec.file838two P)
      else Spec.file80) h i = some x) :
    ∃ off, getFileOffset pages P o i = .ok off ∧ pages.flatten[off]? = some x := by
  have fin : ∀ bn p, pages[bn]? = some p → p[i % P]? = some x →
      pages.flatten[bn * P + i % P]? = some x := by
    intro bn p h1 h2
    rw [flatten_get pages P bn (i % P) hpl (Nat.mod_lt _ (by omega)), h1]
    exact h2
  unfold getFileOffset
  rw [Nat.mod_eq_of_lt h32]
  cases is838 with
  | false =>
    have hP' := h80 rfl
    subst hP'
    obtain ⟨hp, h1, h2, _⟩ := init_80 pages 4096 h o hne ho
    have hg := gives_80 pages 4096 h o hne ho i [x] (by simp; omega) (by
      intro j hj; simp at hj; subst hj; simpa using hx) 0 (by simp)
    obtain ⟨p, e1, e2⟩ := hg
    rw [Nat.add_zero] at e1 e2
    simp only [tabPg, tabOf] at e1
    obtain ⟨tab, e3, e4⟩ := bind_ok' e1
    obtain ⟨tn, e5, e6⟩ := bind_ok' e3
    obtain ⟨bn, e7, e8⟩ := bind_ok' e4
    refine ⟨bn * 4096 + i % 4096, by simp only [h2, e5, e6, e7, Outcome.ok_bind], ?_⟩
    exact fin bn p ((getPage_ok _ _ _).mp e8) (by simpa using e2)
  | true =>
    obtain ⟨hp, h1, h2, _⟩ := init_838 pages P h o hne ho
    by_cases hf : o.fatlevel = 0
    · have hg := gives_838_one pages P h o hne ho hf i [x] (by simp; omega) (by
        intro j hj; simp at hj; subst hj; simpa [hf] using hx) 0 (by simp)
      obtain ⟨p, e1, e2⟩ := hg
      rw [Nat.add_zero] at e1 e2
      simp only [dirPg] at e1
      obtain ⟨bn, e7, e8⟩ := bind_ok' e1
      refine ⟨bn * P + i % P, by simp [h2, hf, e7], ?_⟩
      exact fin bn p ((getPage_ok _ _ _).mp e8) (by simpa using e2)
    · have hg := gives_838_two pages P h o hne ho hf i [x] (by simp; omega) (by
        intro j hj; simp at hj; subst hj; simpa [hf] using hx) 0 (by simp)
      obtain ⟨p, e1, e2⟩ := hg
      rw [Nat.add_zero] at e1 e2
      simp only [tabPg, tabOf, Nat.zero_add] at e1
      obtain ⟨tab, e3, e4⟩ := bind_ok' e1
      obtain ⟨tn, e5, e6⟩ := bind_ok' e3
      obtain ⟨bn, e7, e8⟩ := bind_ok' e4
      refine ⟨bn * P + i % P, by simp [h2, hf, e5, e6, e7], ?_⟩
      exact fin bn p ((getPage_ok _ _ _).mp e8) (by simpa using e2)

/-- **C24 is false from 4 GiB on**: offsets 4 GiB apart are reported at the same place. -/
theorem file_offset_wraps (pages : List Bytes) (P : Nat) (o : Obj) (i : Nat) :
    getFileOffset pages P o (i + 2 ^ 32) = getFileOffset pages P o i := by
  unfold getFileOffset
  rw [Nat.add_mod_right]

/-! ## C29: export to a file -/

theorem saveLoop_spec (pages : List Bytes) (P : Nat) (o : Obj) (hP : 0 < P) (iters offset : Nat) (bs : Bytes)
    (hi : bs.length ≤ iters * P) (hi2 : (iters - 1) * P < bs.length ∨ iters = 0)
    (hr : ∀ start n, 0 < n → start + n ≤ bs.length →
      getPart pages P o (offset + start) n = .ok ((bs.drop start).take n)) :
    saveLoop pages P o iters offset bs.length = .ok bs := by
  induction iters generalizing offset bs with
  | zero =>
    have : bs = [] := List.length_eq_zero_iff.mp (by omega)
    subst this; rfl
  | succ k ih =>
    have hlt : k * P < bs.length := by
      rcases hi2 with h | h
      · simpa using h
      · omega
    have hkp : (k + 1) * P = k * P + P := by rw [Nat.add_mul, Nat.one_mul]
    simp only [saveLoop]
    have h1 := hr 0 (min bs.length P) (by omega) (by omega)
    simp only [Nat.add_zero, List.drop_zero] at h1
    rw [h1]
    have h2 := ih (offset + P) (bs.drop P) (by simp; omega) (by
      cases k with
      | zero => right; rfl
      | succ k =>
        left
        rw [List.length_drop]
        simp only [Nat.add_sub_cancel]
        rw [Nat.add_mul, Nat.one_mul] at hlt
        omega)
      (by
        intro start n hn hle
        simp at hle
        have := hr (P + start) n hn (by omega)
        rw [show offset + P + start = offset + (P + start) by omega, this, List.drop_drop])
    rw [List.length_drop] at h2
    simp only [Outcome.ok_bind, h2]
    congr 1
    by_cases h : bs.length ≤ P
    · rw [Nat.min_eq_left h, List.take_of_length_le (Nat.le_refl _), List.drop_of_length_le h, List.append_nil]
    · rw [Nat.min_eq_right (by omega), List.take_append_drop]

/-- **C29.** Exporting a file of format 8.0 writes exactly its bytes. -/
theorem save_to_file_80 (pages : List Bytes) (h : Nat) (o : Obj) (hne : h ≠ 1)
    (ho : init pages 4096 false h = .ok o) (bs : Bytes) (hlen : bs.length = o.len)
    (hb : Spec.Holds pages 4096 Spec.file80 h 0 bs) :
    saveToFile pages 4096 o = .ok bs := by
  obtain ⟨hp, h1, h2, h3, h4, h5, h6, h7, _⟩ := init_80 pages 4096 h o hne ho
  have hgl : getLen o = bs.length := by simp [getLen, h2, hlen]
  unfold saveToFile
  rw [hgl]
  apply saveLoop_spec _ _ _ (by decide) _ _ _ (by omega) (by omega)
  intro start n hn hle
  have hl : ((bs.drop start).take n).length = n := by simp; omega
  have := read_range_80 pages 4096 h o hne ho start ((bs.drop start).take n)
    (by intro h; rw [h] at hl; simp at hl; omega) (by omega) (by
      intro i hi
      rw [hl] at hi
      have := hb (start + i) (by omega)
      simpa using this)
  rw [hl] at this
  simpa using this

/-- **C29.** The same for format 8.3.8. -/
theorem save_to_file_838 (pages : List Bytes) (P h : Nat) (o : Obj) (hne : h ≠ 1)
    (ho : init pages P true h = .ok o) (hP : 24 ≤ P) (hP2 : P ≤ 65536)
    (hpl : ∀ p, pages[h]? = some p → p.length = P) (h64 : o.len < 2 ^ 64)
    (bs : Bytes) (hlen : bs.length = o.len)
    (hb : Spec.Holds pages P (if o.fatlevel = 0 then Spec.file838one else Spec.file838two P) h 0 bs) :
    saveToFile pages P o = .ok bs := by
  obtain ⟨hp, h1, h2, h3, _⟩ := init_838 pages P h o hne ho
  have hgl : getLen o = bs.length := by simp [getLen, h2, hlen]
  unfold saveToFile
  rw [hgl]
  have e := Nat.div_add_mod (bs.length + P - 1) P
  have hmod := Nat.mod_lt (bs.length + P - 1) (show 0 < P by omega)
  have hmul : (bs.length + P - 1) / P * P = P * ((bs.length + P - 1) / P) := Nat.mul_comm _ _
  apply saveLoop_spec _ _ _ (by omega) _ _ _ (by omega) (by
    rcases Nat.eq_zero_or_pos ((bs.length + P - 1) / P) with h | h
    · right; exact h
    · left
      have hbp : 0 < bs.length := by
        rcases Nat.eq_zero_or_pos bs.length with h0 | h0
        · rw [h0, Nat.div_eq_of_lt (by omega)] at h; omega
        · exact h0
      rw [Nat.sub_mul, Nat.one_mul]
      omega)
  intro start n hn hle
  have hl : ((bs.drop start).take n).length = n := by simp; omega
  have hsl : ∀ s, Spec.Holds pages P s h 0 bs → Spec.Holds pages P s h start ((bs.drop start).take n) := by
    intro s hs i hi
    rw [hl] at hi
    have := hs (start + i) (by omega)
    simpa using this
  rw [Nat.zero_add]
  by_cases hf : o.fatlevel = 0
  · rw [if_pos hf] at hb
    have := read_range_838_one pages P h o hne ho hf hP hP2 hpl h64 start ((bs.drop start).take n)
      (by omega) (hsl _ hb)
    rwa [hl] at this
  · rw [if_neg hf] at hb
    have := read_range_838_two pages P h o hne ho hf hP hP2 hpl h64 start ((bs.drop start).take n)
      (by intro h; rw [h] at hl; simp at hl; omega) (by omega) (hsl _ hb)
    rwa [hl] at this

/-! ## Non-vacuity -/

/-- A file of format 8.0 with header page 2, table page 3 and data page 4. -/
def sample80 : List Bytes :=
  [[], [], sigObj ++ [3, 0, 0, 0] ++ List.replicate 12 0 ++ [3, 0, 0, 0],
   [1, 0, 0, 0, 4, 0, 0, 0], [7, 8, 9, 0]]

def sampleObj80 : Obj := ⟨.data80, 2, 3, 1, 1, 0, [3], none, 0, 0, 1, 0, false⟩

example : init sample80 4096 false 2 = .ok sampleObj80 := by decide
example : Spec.Holds sample80 4096 Spec.file80 2 1 [8, 9] := by
  unfold Spec.Holds; decide
example : Spec.Filled80 sample80 2 3 := by
  intro t ht
  have : t = 0 := by omega
  subst this
  exact ⟨1, by decide, by decide, by decide⟩
example : getPart sample80 4096 sampleObj80 1 2 = .ok [8, 9] := by decide
example : getPart sample80 4096 sampleObj80 2 2 = .throw := by decide

/-- A file of format 8.3.8 with pages of 32 bytes: one level, two data pages. -/
def sample838 : List Bytes :=
  [List.replicate 32 0, List.replicate 32 0,
   [0x1c, 0xfd, 0, 0] ++ List.replicate 12 0 ++ [40, 0, 0, 0, 0, 0, 0, 0] ++ [4, 0, 0, 0] ++ [3, 0, 0, 0],
   List.replicate 32 5, List.replicate 32 6]

def sampleObj838 : Obj := ⟨.data838, 2, 40, 0, 2, 0, [4, 3], none, 0, 0, 1, 0, false⟩

example : init sample838 32 true 2 = .ok sampleObj838 := by decide
example : Spec.Holds sample838 32 Spec.file838one 2 30 [6, 6, 5, 5] := by
  unfold Spec.Holds; decide
example : ∀ p ∈ sample838, p.length = 32 := by decide
example : getPart sample838 32 sampleObj838 30 4 = .ok [6, 6, 5, 5] := by decide

/-- Two levels: table page 3 listing data page 4. -/
def sample838two : List Bytes :=
  [List.replicate 32 0, List.replicate 32 0,
   [0x1c, 0xfd, 1, 0] ++ List.replicate 12 0 ++ [40, 0, 0, 0, 0, 0, 0, 0] ++ [3, 0, 0, 0] ++ [0, 0, 0, 0],
   [4, 0, 0, 0, 5, 0, 0, 0] ++ List.replicate 24 0, List.replicate 32 5, List.replicate 32 6]

def sampleObj838two : Obj := ⟨.data838, 2, 40, 1, 1, 0, [3], none, 0, 0, 1, 0, false⟩

example : init sample838two 32 true 2 = .ok sampleObj838two := by decide
example : Spec.Holds sample838two 32 (Spec.file838two 32) 2 30 [5, 5, 6, 6] := by
  unfold Spec.Holds; decide
example : getPart sample838two 32 sampleObj838two 30 4 = .ok [5, 5, 6, 6] := by decide
example : saveToFile sample838two 32 sampleObj838two
    = .ok (List.replicate 32 5 ++ List.replicate 8 6) := by decide

/-- The empty file: reading nothing from it is undefined. -/
example : init [[], [], sigObj ++ List.replicate 16 0] 4096 false 2
    = .ok ⟨.data80, 2, 0, 1, 0, 0, [], none, 0, 0, 1, 0, false⟩ := by decide

end Verif.Object
