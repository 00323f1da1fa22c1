import Verif.Object.DataLemmas

/-! # Property theorems: writing a range of an object (C23) and versions (C28) -/

namespace Verif.Object
open Verif

/-! ## C23: writing a range -/

/-- What writing `buf` at `start` of the file with header page `h` and data pages `D`
must do: the bytes of the range are replaced and all other bytes of the file are
as before; pages that do not belong to the file are as before; of the header page
only the eight bytes of the version (at `vo`) may differ; the free-page list is
untouched. -/
structure Spec.RangeWritten (s s' : St) (P : Nat) (sh : Spec.Shape) (h vo : Nat) (D : List Nat) (start : Nat)
    (buf : Bytes) : Prop where
  bytes : ∀ i, i < D.length * P → Spec.byteAt s'.pages P sh h i =
    if start ≤ i ∧ i < start + buf.length then buf[i - start]? else Spec.byteAt s.pages P sh h i
  others : ∀ q, q ∉ D → q ≠ h → s'.pages[q]? = s.pages[q]?
  header : ∃ hp hp', s.pages[h]? = some hp ∧ s'.pages[h]? = some hp' ∧ hp'.length = hp.length ∧
    ∀ i, i < vo ∨ vo + 8 ≤ i → hp'[i]? = hp[i]?
  free : s'.fr = s.fr
  count : s'.pages.length = s.pages.length

theorem word_splice_sub (p : Bytes) (off : Nat) (b : Bytes) (d : Nat) (h : off + b.length ≤ p.length)
    (hd : d + 4 ≤ b.length) : Spec.word (splice p off b) (off + d) = Spec.word b d := by
  unfold Spec.word
  have e : ∀ j, j < 4 → (splice p off b)[off + d + j]? = b[d + j]? := by
    intro j hj
    rw [Nat.add_assoc]
    exact splice_get_in p off b (d + j) h (by omega)
  have e0 := e 0 (by decide)
  simp only [Nat.add_zero] at e0
  rw [e0, e 1 (by decide), e 2 (by decide), e 3 (by decide)]

theorem word_le32_append (v : Nat) (b : Bytes) (hv : v < 2 ^ 32) : Spec.word (le32 v ++ b) 0 = some v := by
  have : (le32 v ++ b) = splice (le32 v ++ b) 0 (le32 v) := by
    unfold splice
    rw [length_le32]
    rfl
  rw [this]
  exact word_splice_in _ _ _ (by simp [length_le32]) hv

/-- The version write on a page of full size. -/
theorem writeVersion_ok (e : Env) (s : St) (o : Obj) (P : Nat) (hP : 20 ≤ P) (hlt : o.block < s.pages.length)
    (hf : ∀ p ∈ s.pages, p.length = P) :
    ∃ s' hp hp', writeVersion e s o = .ok (s', { o with recorded := true }) ∧ s.pages[o.block]? = some hp ∧
      hp'.length = hp.length ∧ s'.pages = s.pages.set o.block hp' ∧ s'.fr = s.fr ∧
      (∀ i, i < (if o.kind = .data80 ∨ o.kind = .free80 then 12 else 4) ∨
        (if o.kind = .data80 ∨ o.kind = .free80 then 12 else 4) + 8 ≤ i → hp'[i]? = hp[i]?) ∧
      (o.recorded = false → ∀ vo, vo = (if o.kind = .data80 ∨ o.kind = .free80 then 12 else 4) →
        Spec.word hp' vo = some ((o.ver1 + 1) % 2 ^ 32) ∧ (o.ver2 < 2 ^ 32 → Spec.word hp' (vo + 4) = some o.ver2)) ∧
      (o.recorded = true → s' = s) := by
  have hp := List.getElem?_eq_getElem hlt
  have hl := hf _ (List.getElem_mem hlt)
  generalize s.pages[o.block] = p at hp hl
  unfold writeVersion
  by_cases hr : o.recorded = true
  · rw [if_pos hr]
    refine ⟨s, p, p, by rw [← hr], hp, rfl, ?_, rfl, fun _ _ => rfl, ?_, fun _ => rfl⟩
    · apply List.ext_getElem?
      intro i
      rw [List.getElem?_set]
      split
      · rename_i h; subst h; exact hp
      · rfl
    · intro h; rw [hr] at h; cases h
  · rw [if_neg hr]
    generalize hvo : (if o.kind = Kind.data80 ∨ o.kind = Kind.free80 then 12 else 4) = vo
    have hvo2 : vo ≤ 12 := by rw [← hvo]; split <;> decide
    simp only [touch_read e s o.block hlt, Outcome.ok_bind]
    have hlen : (le32 ((o.ver1 + 1) % 2 ^ 32) ++ le32 o.ver2).length = 8 := rfl
    rw [poke_ok s o.block vo _ p hp (by rw [hlen]; omega)]
    refine ⟨_, p, splice p vo (le32 ((o.ver1 + 1) % 2 ^ 32) ++ le32 o.ver2), rfl, hp,
      length_splice _ _ _ (by rw [hlen]; omega), rfl, rfl, ?_, ?_, fun h => absurd h hr⟩
    · intro i hi
      exact splice_get_out _ _ _ _ (by rw [hlen]; omega) (by rw [hlen]; omega)
    · intro _ vo' hvo'
      rw [hvo']
      clear hvo'
      have hb : vo + (le32 ((o.ver1 + 1) % 2 ^ 32) ++ le32 o.ver2).length ≤ p.length := by rw [hlen]; omega
      have h1 := word_splice_sub p vo _ 0 hb (by rw [hlen]; omega)
      have h2 := word_splice_sub p vo _ 4 hb (by rw [hlen]; omega)
      simp only [Nat.add_zero] at h1
      rw [h1, h2]
      constructor
      · exact word_le32_append _ _ (Nat.mod_lt _ (by decide))
      · intro hv
        have := word_le32_append o.ver2 [] hv
        rw [List.append_nil] at this
        rw [← this]
        rfl

theorem word_congr (p q : Bytes) (off : Nat) (h : ∀ i, off ≤ i → p[i]? = q[i]?) : Spec.word p off = Spec.word q off := by
  unfold Spec.word
  rw [h off (by omega), h (off + 1) (by omega), h (off + 2) (by omega), h (off + 3) (by omega)]

/-- Ownership depends only on the header's root list and on the table pages. -/
theorem own_transfer {pages pages' : List Bytes} {sh : Spec.Shape} {h : Nat} {D : List Nat} (ho : Spec.Own pages sh h D)
    (ro : Nat) (hsh : sh = .direct ro ∨ ∃ per hdr, sh = .tables ro per hdr) {hp hp' : Bytes}
    (h1 : pages[h]? = some hp) (h2 : pages'[h]? = some hp') (h3 : ∀ i, ro ≤ i → hp'[i]? = hp[i]?)
    (h4 : ∀ q, q ∉ D → q ≠ h → pages'[q]? = pages[q]?) (h5 : pages.length ≤ pages'.length) :
    Spec.Own pages' sh h D := by
  have hw : ∀ k, Spec.word hp' (ro + 4 * k) = Spec.word hp (ro + 4 * k) :=
    fun k => word_congr _ _ _ (fun i hi => h3 i (by omega))
  have hto : ∀ k, Spec.tablePage pages' sh h k = Spec.tablePage pages sh h k := by
    intro k
    unfold Spec.tablePage
    rw [h1, h2]
    rcases hsh with rfl | ⟨per, hdr, rfl⟩
    · rfl
    · exact hw _
  refine ⟨?_, fun q hq => Nat.lt_of_lt_of_le (ho.exists_ q hq) h5, ho.nodup, ho.header, ?_⟩
  · intro k hk
    have hd := ho.page k hk
    have ht := ho.tables k
    unfold Spec.dataPage at hd ⊢
    unfold Spec.tablePage at ht
    rw [h1] at hd ht
    rw [h2]
    rcases hsh with rfl | ⟨per, hdr, rfl⟩
    · simp only [Option.bind_eq_bind, Option.bind_some] at hd ⊢
      rw [hw]; exact hd
    · simp only [Option.bind_eq_bind, Option.bind_some, Option.bind_eq_some_iff] at hd ⊢
      obtain ⟨t, a1, tp, a2, a3⟩ := hd
      have := ht t hk (by simp only [Option.bind_eq_bind, Option.bind_some, a1])
      exact ⟨t, by rw [hw]; exact a1, tp, by rw [h4 t this.1 this.2]; exact a2, a3⟩
  · intro k t hk ht
    rw [hto] at ht
    exact ho.tables k t hk ht

/-- From the effect of the loops to the effect of the whole call. -/
theorem range_written (e : Env) (s s1 : St) (h : Nat) (o : Obj) (P : Nat) (sh : Spec.Shape)
    (hsh : sh = .direct 24 ∨ ∃ per hdr, sh = .tables 24 per hdr) (D : List Nat) (hp : Bytes) (hP : 20 ≤ P)
    (i1 : s.pages[h]? = some hp) (i8 : o.block = h) (hown : Spec.Own s.pages sh h D) (start : Nat) (buf : Bytes)
    (hw : Wrote s s1 P D start buf) :
    ∃ s', writeVersion e s1 o = .ok (s', { o with recorded := true }) ∧
      Spec.RangeWritten s s' P sh h (if o.kind = .data80 ∨ o.kind = .free80 then 12 else 4) D start buf := by
  have hblk : o.block < s1.pages.length := by rw [hw.len, i8]; exact getElem?_some_lt i1
  obtain ⟨s', hp1, hp', v1, v2, v3, v4, v5, v6, v7, v8⟩ := writeVersion_ok e s1 o P hP hblk hw.full
  have hvo2 : (if o.kind = Kind.data80 ∨ o.kind = Kind.free80 then 12 else 4) ≤ 12 := by split <;> decide
  refine ⟨s', v1, ?_⟩
  have hhD : h ∉ D := hown.header
  have hhp1 : s1.pages[h]? = some hp := by rw [hw.frame h hhD, i1]
  have hpp : hp1 = hp := by
    rw [i8, hhp1] at v2; exact (Option.some.inj v2).symm
  subst hpp
  have hframe : ∀ q, q ≠ h → s'.pages[q]? = s1.pages[q]? := by
    intro q hq
    rw [v4, get_set_ne]
    rw [i8]; exact Ne.symm hq
  have hh' : s'.pages[h]? = some hp' := by
    rw [v4, i8, get_set_eq _ _ _ (by rw [← i8]; exact hblk)]
  have hown' : Spec.Own s'.pages sh h D :=
    own_transfer hown 24 hsh i1 hh' (fun i hi => v6 i (by omega))
      (fun q hq hqh => by rw [hframe q hqh, hw.frame q hq])
      (by rw [v4, List.length_set, hw.len]; exact Nat.le_refl _)
  refine ⟨?_, ?_, ⟨hp1, hp', i1, hh', v3, v6⟩, v5.trans hw.fr, ?_⟩
  · intro i hi
    have hiD : i / P < D.length := (Nat.div_lt_iff_lt_mul (by omega)).mpr hi
    rw [byteAt_own hown' P i hiD, byteAt_own hown P i hiD, ← hw.bytes i]
    unfold fileByte
    rw [List.getElem?_eq_getElem hiD]
    simp only [Option.bind_some]
    rw [hframe]
    intro hc
    exact hhD (hc ▸ List.getElem_mem hiD)
  · intro q hq hqh
    rw [hframe q hqh, hw.frame q hq]
  · rw [v4, List.length_set, hw.len]

/-- **C23.** A write inside a file of format 8.0 replaces exactly the bytes of the range. -/
theorem write_range_80 (e : Env) (he : e.P = 4096) (s : St) (h : Nat) (o : Obj) (hne : h ≠ 1)
    (ho : init s.pages 4096 false h = .ok o) (hf : ∀ p ∈ s.pages, p.length = 4096) (D : List Nat)
    (hown : Spec.Own s.pages Spec.file80 h D) (hD : o.len ≤ D.length * 4096) (hDb : D.length ≤ o.blocks.length * 1023)
    (start : Nat) (buf : Bytes) (hb : buf ≠ []) (hin : start + buf.length ≤ o.len) (fuel : Nat) :
    ∃ s' o', setData80 e false fuel s o start buf = .ok (some (s', o')) ∧
      Spec.RangeWritten s s' 4096 Spec.file80 h 12 D start buf ∧ o' = { o with recorded := true } := by
  obtain ⟨hp, i1, i2, i3, i4, i5, i6, i7, i8, i9, i10, i11⟩ := init_80 s.pages 4096 h o hne ho
  have hpos : 0 < buf.length := List.length_pos_iff.mpr hb
  have hmod := Nat.mod_lt start (show 0 < 4096 by decide)
  have hdm := Nat.div_add_mod start 4096
  have htab : ∀ j (hj : j < D.length), ∃ t tp, o.blocks[j / 1023]? = some t ∧ t ∉ D ∧ s.pages[t]? = some tp ∧
      Spec.word tp (4 + 4 * (j % 1023)) = some D[j] := by
    intro j hj
    have h1 := hown.page j hj
    unfold Spec.dataPage at h1
    simp only [Spec.file80, i1, Option.bind_eq_bind, Option.bind_some, Option.bind_eq_some_iff] at h1
    obtain ⟨t, ht, tp, htp, hw⟩ := h1
    refine ⟨t, tp, ?_, ?_, htp, hw⟩
    · rw [i7 _ (by omega)]; exact ht
    · refine (hown.tables j t hj ?_).1
      unfold Spec.tablePage
      simp only [Spec.file80, i1, Option.bind_eq_bind, Option.bind_some, ht]
  have hk : start / 4096 < D.length := by omega
  obtain ⟨t, tp, ht1, ht2, ht3, ht4⟩ := htab _ hk
  obtain ⟨s1, hs1, hw⟩ := putTab_ok e 4096 1023 4 he (by decide) (by decide) D o.blocks hown.nodup buf.length s
    (start / 4096) (start % 4096) t buf hf hown.exists_ htab hmod (Nat.le_refl _) (by omega) (fun _ => ht1)
  have hat : start / 4096 * 4096 + start % 4096 = start := by omega
  rw [hat] at hw
  obtain ⟨s', v1, hrw⟩ := range_written e s s1 h o 4096 Spec.file80 (Or.inr ⟨1023, 4, rfl⟩) D hp (by decide) i1 i8 hown start buf hw
  have hoo : ({ o with data := none } : Obj) = o := by rw [← i3]
  refine ⟨s', { o with recorded := true }, ?_, ?_, rfl⟩
  · unfold setData80
    rw [if_neg (by simp), if_neg (by simp [i2]), if_neg (by omega), hoo]
    unfold putRange
    simp only [i2]
    unfold writeTab
    simp only [(idx_ok _ _ _).mpr ht1, (getPage_ok _ _ _).mpr ht3, Outcome.ok_bind, hs1]
    rw [v1]
    simp only [Outcome.ok_bind, i2]
  · simpa [i2] using hrw

/-- **C23.** The same for format 8.3.8, one or two levels. -/
theorem write_range_838 (e : Env) (hP : 24 ≤ e.P) (s : St) (h : Nat) (o : Obj) (hne : h ≠ 1)
    (ho : init s.pages e.P true h = .ok o) (hf : ∀ p ∈ s.pages, p.length = e.P) (D : List Nat)
    (hown : Spec.Own s.pages (if o.fatlevel = 0 then Spec.file838one else Spec.file838two e.P) h D)
    (hD : o.len ≤ D.length * e.P)
    (hDb : D.length ≤ if o.fatlevel = 0 then o.blocks.length else o.blocks.length * (e.P / 4))
    (start : Nat) (buf : Bytes) (hb : buf ≠ []) (hin : start + buf.length ≤ o.len) (fuel : Nat) :
    ∃ s' o', setData838 e false fuel s o start buf = .ok (some (s', o')) ∧
      Spec.RangeWritten s s' e.P (if o.fatlevel = 0 then Spec.file838one else Spec.file838two e.P) h 4 D start buf ∧
      o' = { o with recorded := true } := by
  obtain ⟨hp, i1, i2, i3, i4, i5, i6, i7, i8, i9⟩ := init_838 s.pages e.P h o hne ho
  have hpos : 0 < buf.length := List.length_pos_iff.mpr hb
  have hP0 : 0 < e.P := by omega
  have hmod := Nat.mod_lt start hP0
  have hat : start / e.P * e.P + start % e.P = start := by rw [Nat.mul_comm]; exact Nat.div_add_mod start e.P
  have hk : start / e.P < D.length := (Nat.div_lt_iff_lt_mul hP0).mpr (by omega)
  have hoo : ({ o with data := none } : Obj) = o := by rw [← i3]
  have fin : ∀ sh s1, (sh = .direct 24 ∨ ∃ per hdr, sh = .tables 24 per hdr) → Spec.Own s.pages sh h D →
      Wrote s s1 e.P D start buf → ∃ s', writeVersion e s1 o = .ok (s', { o with recorded := true }) ∧
      Spec.RangeWritten s s' e.P sh h 4 D start buf := by
    intro sh s1 hsh hown hw
    obtain ⟨s', v1, hrw⟩ := range_written e s s1 h o e.P sh hsh D hp (by omega) i1 i9 hown start buf hw
    exact ⟨s', v1, by simpa [i2] using hrw⟩
  have head : ∀ r, putRange e s o start buf = .ok r → setData838 e false fuel s o start buf = .ok (some r) := by
    intro r hr
    unfold setData838
    rw [if_neg (by simp), if_neg (by simp [i2]), if_neg (by omega), hoo, hr]
    rfl
  by_cases hfat : o.fatlevel = 0
  · rw [if_pos hfat] at hown hDb ⊢
    have hbl : ∀ j (hj : j < D.length), o.blocks[j]? = some D[j] := by
      intro j hj
      have h1 := hown.page j hj
      unfold Spec.dataPage at h1
      simp only [Spec.file838one, i1, Option.bind_eq_bind, Option.bind_some] at h1
      rw [i8 j (by omega)]; exact h1
    obtain ⟨s1, hs1, hw⟩ := putDir_ok e e.P rfl hP0 D o.blocks hown.nodup hbl buf.length s (start / e.P) (start % e.P)
      buf hf hown.exists_ hmod (Nat.le_refl _) (by omega)
    rw [hat] at hw
    obtain ⟨s', v1, hrw⟩ := fin _ s1 (Or.inl rfl) hown hw
    refine ⟨s', _, head _ ?_, hrw, rfl⟩
    unfold putRange
    simp only [i2, hfat]
    rw [if_neg (by simp)]
    simp only [hs1, Outcome.ok_bind]
    rw [v1]; simp only [i2, hfat]
  · rw [if_neg hfat] at hown hDb ⊢
    have hper : 0 < e.P / 4 := by omega
    have htab : ∀ j (hj : j < D.length), ∃ t tp, o.blocks[j / (e.P / 4)]? = some t ∧ t ∉ D ∧ s.pages[t]? = some tp ∧
        Spec.word tp (0 + 4 * (j % (e.P / 4))) = some D[j] := by
      intro j hj
      have h1 := hown.page j hj
      unfold Spec.dataPage at h1
      simp only [Spec.file838two, i1, Option.bind_eq_bind, Option.bind_some, Option.bind_eq_some_iff] at h1
      obtain ⟨t, ht, tp, htp, hw⟩ := h1
      refine ⟨t, tp, ?_, ?_, htp, hw⟩
      · rw [i8 _ ?_]
        · exact ht
        · rw [← i7]; exact (Nat.div_lt_iff_lt_mul hper).mpr (by omega)
      · refine (hown.tables j t hj ?_).1
        unfold Spec.tablePage
        simp only [Spec.file838two, i1, Option.bind_eq_bind, Option.bind_some, ht]
    obtain ⟨t, tp, ht1, ht2, ht3, ht4⟩ := htab _ hk
    obtain ⟨s1, hs1, hw⟩ := putTab_ok e e.P (e.P / 4) 0 rfl hP0 hper D o.blocks hown.nodup buf.length s
      (start / e.P) (start % e.P) t buf hf hown.exists_ htab hmod (Nat.le_refl _) (by omega) (fun _ => ht1)
    rw [hat] at hw
    obtain ⟨s', v1, hrw⟩ := fin _ s1 (Or.inr ⟨_, _, rfl⟩) hown hw
    refine ⟨s', _, head _ ?_, hrw, rfl⟩
    unfold putRange
    simp only [i2]
    rw [if_pos hfat]
    unfold writeTab
    simp only [(idx_ok _ _ _).mpr ht1, (getPage_ok _ _ _).mpr ht3, Outcome.ok_bind, hs1]
    rw [v1]; simp only [i2]

/-- **C23.** A read-only database refuses every write. -/
theorem write_readonly (e : Env) (fuel : Nat) (s : St) (o : Obj) (start : Nat) (buf : Bytes) :
    setData80 e true fuel s o start buf = .throw ∧ setData838 e true fuel s o start buf = .throw := ⟨rfl, rfl⟩

/-! Non-vacuity, on pages of 32 bytes: a write across the border of the two data pages of
`sample838`, and one through the table of `sample838two`. -/

def smallEnv : Env := ⟨32, fun _ => false, 0⟩
def smallFree : Obj := ⟨.free838, 1, 0, 0, 0, 0, [], none, 0, 0, 1, 0, false⟩

example : Spec.Own sample838 Spec.file838one 2 [4, 3] :=
  ⟨by decide, by decide, by decide, by decide, by
    intro k t hk ht
    simp [Spec.tablePage, Spec.file838one, sample838] at ht⟩
example : Spec.Own sample838two (Spec.file838two 32) 2 [4, 5] :=
  ⟨by decide, by decide, by decide, by decide, by
    intro k t hk ht
    have h8 : k / 8 = 0 := by simp at hk; omega
    have : Spec.tablePage sample838two (Spec.file838two 32) 2 0 = some 3 := by decide
    unfold Spec.tablePage Spec.file838two at ht this
    simp only [h8, show 32 / 4 = 8 from rfl, Nat.zero_div] at ht this
    rw [this] at ht
    cases ht; decide⟩
example : (setData838 smallEnv false 10 ⟨sample838, smallFree, 0⟩ sampleObj838 31 [1, 2, 3]).bind (fun r =>
    match r with | some (s, o) => getPart s.pages 32 o 30 6 | none => .ub) = .ok [6, 1, 2, 3, 5, 5] := by decide
example : (setData838 smallEnv false 10 ⟨sample838two, smallFree, 0⟩ sampleObj838two 31 [1, 2, 3]).bind (fun r =>
    match r with | some (s, o) => getPart s.pages 32 o 30 6 | none => .ub) = .ok [5, 1, 2, 3, 6, 6] := by decide

/-- The same for format 8.0 with whole pages: header page 2, table page 3, data pages 4 and 5. -/
def page80 (xs : Bytes) : Bytes := xs ++ List.replicate (4096 - xs.length) 0

def full80 : List Bytes :=
  [page80 [], page80 [], page80 (sigObj ++ [4, 16, 0, 0] ++ List.replicate 12 0 ++ [3, 0, 0, 0]),
   page80 [2, 0, 0, 0, 4, 0, 0, 0, 5, 0, 0, 0], page80 [7, 8, 9], page80 [1, 2, 3, 4]]

def fullObj80 : Obj := ⟨.data80, 2, 4100, 1, 1, 0, [3], none, 0, 0, 1, 0, false⟩

theorem full80_own : Spec.Own full80 Spec.file80 2 [4, 5] :=
  ⟨by decide +kernel, by decide +kernel, by decide, by decide, by
    intro k t hk ht
    have h0 : k / 1023 = 0 := by simp at hk; omega
    have : Spec.tablePage full80 Spec.file80 2 0 = some 3 := by decide +kernel
    unfold Spec.tablePage Spec.file80 at ht this
    simp only [h0, Nat.zero_div] at ht this
    rw [this] at ht
    cases ht; decide⟩
theorem full80_lengths : ∀ p ∈ full80, p.length = 4096 := by decide +kernel
theorem full80_init : init full80 4096 false 2 = .ok fullObj80 := by decide +kernel

example (ora : Nat → Bool) : ∃ s' o',
    setData80 ⟨4096, ora, 0⟩ false 10 ⟨full80, smallFree, 0⟩ fullObj80 4094 [1, 2, 3] = .ok (some (s', o')) := by
  obtain ⟨s', o', h, _⟩ := write_range_80 ⟨4096, ora, 0⟩ rfl ⟨full80, smallFree, 0⟩ 2 fullObj80 (by decide) full80_init
    full80_lengths [4, 5] full80_own (by decide) (by decide) 4094 [1, 2, 3] (by decide) (by decide) 10
  exact ⟨s', o', h⟩

/-! ## C28: versions -/

/-- What happens to an object between opening and closing: a record version is asked for,
or its contents are changed (which records the new version of the object). -/
inductive VOp where
  | ask
  | write
  deriving DecidableEq

/-- The handed-out record versions, in order, and the final state. -/
def runV (e : Env) : St → Obj → List VOp → Outcome (List (Nat × Nat) × St × Obj)
  | s, o, [] => .ok ([], s, o)
  | s, o, .ask :: ops => do
    let (v, o') := versionRec o
    let (vs, s', o'') ← runV e s o' ops
    .ok (v :: vs, s', o'')
  | s, o, .write :: ops => do
    let (s', o') ← writeVersion e s o
    runV e s' o' ops

/-- The order of versions. -/
def Spec.vlt (a b : Nat × Nat) : Prop := a.1 < b.1 ∨ (a.1 = b.1 ∧ a.2 < b.2)

/-- **C28a.** For every sequence of requests and writes (fewer than 2^32), the record
versions handed out are strictly increasing, and all of them carry the version the
object will be stored with. -/
theorem record_versions_increase (e : Env) (s : St) (o : Obj) (P : Nat) (hP : 20 ≤ P) (hlt : o.block < s.pages.length)
    (hf : ∀ p ∈ s.pages, p.length = P) (ops : List VOp) (hn : o.rec2 + ops.length ≤ 2 ^ 32) :
    ∃ vs s' o', runV e s o ops = .ok (vs, s', o') ∧ vs.Pairwise Spec.vlt ∧
      (∀ v ∈ vs, v.1 = o.rec1 ∧ o.rec2 ≤ v.2) ∧ currentVersion o' = currentVersion o := by
  induction ops generalizing s o with
  | nil => exact ⟨[], s, o, rfl, List.Pairwise.nil, by simp, rfl⟩
  | cons op ops ih =>
    simp only [List.length_cons] at hn
    cases op with
    | ask =>
      by_cases hw : ops = []
      · subst hw
        exact ⟨[(o.rec1, o.rec2)], s, _, rfl, by simp, by simp, rfl⟩
      have hl : 0 < ops.length := List.length_pos_iff.mpr hw
      have hmod : (o.rec2 + 1) % 2 ^ 32 = o.rec2 + 1 := Nat.mod_eq_of_lt (by omega)
      obtain ⟨vs, s', o', h1, h2, h3, h4⟩ := ih s { o with rec2 := (o.rec2 + 1) % 2 ^ 32 } hlt hf
        (by show (o.rec2 + 1) % 2 ^ 32 + _ ≤ _; omega)
      refine ⟨(o.rec1, o.rec2) :: vs, s', o', ?_, ?_, ?_, h4⟩
      · simp only [runV, versionRec, h1, Outcome.ok_bind]
      · rw [List.pairwise_cons]
        refine ⟨fun v hv => ?_, h2⟩
        obtain ⟨a, b⟩ := h3 v hv
        simp only [hmod] at b
        right
        exact ⟨a.symm, by show o.rec2 < v.2; omega⟩
      · intro v hv
        rcases List.mem_cons.mp hv with rfl | hv
        · exact ⟨rfl, Nat.le_refl _⟩
        · obtain ⟨a, b⟩ := h3 v hv
          simp only [hmod] at b
          exact ⟨a, by omega⟩
    | write =>
      obtain ⟨s1, hp, hp', v1, v2, v3, v4, v5, _⟩ := writeVersion_ok e s o P hP hlt hf
      have hpl := hf hp (List.mem_of_getElem? v2)
      obtain ⟨vs, s', o', h1, h2, h3, h4⟩ := ih s1 { o with recorded := true } (by rw [v4, List.length_set]; exact hlt)
        (by rw [v4]; exact set_lengths _ _ _ _ hf (by rw [v3, hpl])) (by show o.rec2 + _ ≤ _; omega)
      exact ⟨vs, s', o', by simp only [runV, v1, Outcome.ok_bind]; exact h1, h2, h3, h4⟩

/-- The version stored in the header page. -/
def Spec.storedVersion (pages : List Bytes) (h vo : Nat) : Option (Nat × Nat) := do
  let hp ← pages[h]?
  let a ← Spec.word hp vo
  let b ← Spec.word hp (vo + 4)
  return (a, b)

theorem runV_version (e : Env) (ops : List VOp) : ∀ s o vs s' o', runV e s o ops = .ok (vs, s', o') →
    currentVersion o' = currentVersion o := by
  induction ops with
  | nil =>
    intro s o vs s' o' h
    simp only [runV, Outcome.ok.injEq, Prod.mk.injEq] at h
    rw [← h.2.2]
  | cons op ops ih =>
    intro s o vs s' o' h
    cases op with
    | ask =>
      simp only [runV, versionRec] at h
      cases hr : runV e s { o with rec2 := (o.rec2 + 1) % 2 ^ 32 } ops with
      | ok r =>
        obtain ⟨v, s1, o1⟩ := r
        rw [hr] at h
        simp only [Outcome.ok_bind, Outcome.ok.injEq, Prod.mk.injEq] at h
        rw [← h.2.2, ih _ _ _ _ _ hr]
        rfl
      | throw => rw [hr] at h; simp at h
      | ub => rw [hr] at h; simp at h
    | write =>
      simp only [runV] at h
      cases hr : writeVersion e s o with
      | ok r =>
        obtain ⟨s1, o1⟩ := r
        rw [hr] at h
        simp only [Outcome.ok_bind] at h
        have hk : currentVersion o1 = currentVersion o := by
          unfold writeVersion at hr
          split at hr
          · cases hr; rfl
          · simp only at hr
            generalize touch e s o.block true = x at hr
            cases x with
            | ok s2 =>
              simp only [Outcome.ok_bind] at hr
              generalize poke s2 _ _ _ = y at hr
              cases y with
              | ok s3 =>
                simp only [Outcome.ok_bind, Outcome.ok.injEq, Prod.mk.injEq] at hr
                rw [← hr.2]; rfl
              | throw => simp at hr
              | ub => simp at hr
            | throw => simp at hr
            | ub => simp at hr
        rw [← hk]
        exact ih _ _ _ _ _ h
      | throw => rw [hr] at h; simp at h
      | ub => rw [hr] at h; simp at h

/-- Once the new version is recorded, nothing is written any more. -/
theorem recorded_stays (e : Env) (s : St) (o : Obj) (hr : o.recorded = true) (ops : List VOp) :
    ∃ vs s' o', runV e s o ops = .ok (vs, s', o') ∧ s'.pages = s.pages ∧ True := by
  induction ops generalizing o with
  | nil => exact ⟨[], s, o, rfl, rfl, trivial⟩
  | cons op ops ih =>
    cases op with
    | ask =>
      obtain ⟨vs, s', o', h1, h3, _⟩ := ih { o with rec2 := (o.rec2 + 1) % 2 ^ 32 } hr
      exact ⟨(o.rec1, o.rec2) :: vs, s', o', by simp only [runV, versionRec, h1, Outcome.ok_bind], h3, trivial⟩
    | write =>
      obtain ⟨vs, s', o', h1, h3, _⟩ := ih o hr
      exact ⟨vs, s', o', by simp only [runV, writeVersion, if_pos hr, Outcome.ok_bind]; exact h1, h3, trivial⟩

/-- **C28b.** After any sequence, the stored version is the one read at opening if nothing
was written, and its successor (the one all record versions carry) otherwise: it
advances at most once. No other page changes. -/
theorem stored_version (e : Env) (s : St) (o : Obj) (P : Nat) (hP : 20 ≤ P) (hlt : o.block < s.pages.length)
    (hf : ∀ p ∈ s.pages, p.length = P) (hr : o.recorded = false) (hrec : o.rec1 = (o.ver1 + 1) % 2 ^ 32)
    (h2 : o.ver2 < 2 ^ 32) (vo : Nat) (hvo : vo = if o.kind = .data80 ∨ o.kind = .free80 then 12 else 4)
    (hst : Spec.storedVersion s.pages o.block vo = some (currentVersion o)) (ops : List VOp) :
    ∃ vs s' o', runV e s o ops = .ok (vs, s', o') ∧
      Spec.storedVersion s'.pages o.block vo =
        some (if VOp.write ∈ ops then (o.rec1, (currentVersion o).2) else currentVersion o) ∧
      ∀ q, q ≠ o.block → s'.pages[q]? = s.pages[q]? := by
  induction ops generalizing s o with
  | nil => exact ⟨[], s, o, rfl, by simpa using hst, fun _ _ => rfl⟩
  | cons op ops ih =>
    cases op with
    | ask =>
      obtain ⟨vs, s', o', h1, h3, h4⟩ := ih s { o with rec2 := (o.rec2 + 1) % 2 ^ 32 } hlt hf hr hrec h2 hvo hst
      refine ⟨(o.rec1, o.rec2) :: vs, s', o', ?_, ?_, h4⟩
      · simp only [runV, versionRec, h1, Outcome.ok_bind]
      · by_cases hm : VOp.write ∈ ops
        · rw [if_pos (List.mem_cons_of_mem _ hm)]
          rw [if_pos hm] at h3
          exact h3
        · rw [if_neg (by simp [hm])]
          rw [if_neg hm] at h3
          exact h3
    | write =>
      obtain ⟨s1, hp, hp', v1, v2, v3, v4, _, v5, v6, _⟩ := writeVersion_ok e s o P hP hlt hf
      have hpl := hf hp (List.mem_of_getElem? v2)
      obtain ⟨w1, w2⟩ := v6 hr vo hvo
      have hs1 : Spec.storedVersion s1.pages o.block vo = some (o.rec1, o.ver2) := by
        unfold Spec.storedVersion
        rw [v4, List.getElem?_set_self hlt]
        simp only [Option.bind_eq_bind, Option.bind_some, w1, w2 h2, Option.pure_def, hrec]
      obtain ⟨vs, s', o', h1, h3, h4⟩ := recorded_stays e s1 { o with recorded := true } rfl ops
      refine ⟨vs, s', o', by simp only [runV, v1, Outcome.ok_bind]; exact h1, ?_, ?_⟩
      · rw [h3, hs1, if_pos (by simp)]
        rfl
      · intro q hq
        rw [h3, v4, List.getElem?_set_ne (fun h => hq h.symm)]

/-- Non-vacuity: the file of `sample838`, opened at version (0, 0). -/
example : Spec.storedVersion sample838 2 4 = some (currentVersion sampleObj838) := by decide
example : (runV smallEnv ⟨sample838, smallFree, 0⟩ sampleObj838 [.ask, .write, .ask, .write, .ask]).bind
    (fun r => .ok (r.1, Spec.storedVersion r.2.1.pages 2 4)) = .ok ([(1, 0), (1, 1), (1, 2)], some (1, 0)) := by decide

/-- **Finding (C28).** What `get_current_version` reports after a write is not what the
write has stored: the object still reports the version read at opening. -/
theorem reported_version_is_stale (e : Env) (s : St) (o : Obj) (P : Nat) (hP : 20 ≤ P) (hlt : o.block < s.pages.length)
    (hf : ∀ p ∈ s.pages, p.length = P) (hr : o.recorded = false) (hrec : o.rec1 = (o.ver1 + 1) % 2 ^ 32)
    (h1 : o.ver1 < 2 ^ 32) (h2 : o.ver2 < 2 ^ 32) (vo : Nat)
    (hvo : vo = if o.kind = .data80 ∨ o.kind = .free80 then 12 else 4)
    (hst : Spec.storedVersion s.pages o.block vo = some (currentVersion o)) (ops : List VOp) (hw : VOp.write ∈ ops) :
    ∃ vs s' o', runV e s o ops = .ok (vs, s', o') ∧
      Spec.storedVersion s'.pages o.block vo ≠ some (currentVersion o') := by
  obtain ⟨vs, s', o', a, b, _⟩ := stored_version e s o P hP hlt hf hr hrec h2 vo hvo hst ops
  refine ⟨vs, s', o', a, ?_⟩
  rw [b, if_pos hw, runV_version e ops s o vs s' o' a]
  intro h
  simp only [Option.some.injEq, currentVersion, Prod.mk.injEq, hrec] at h
  have := h.1
  rcases Nat.lt_or_ge (o.ver1 + 1) (2 ^ 32) with hh | hh
  · rw [Nat.mod_eq_of_lt hh] at this; omega
  · have : o.ver1 + 1 = 2 ^ 32 := by omega
    rw [this] at h
    simp at h
    omega

end Verif.Object
