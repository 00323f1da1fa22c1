import Verif.Object.Grow838Theorems
import Verif.Object.StoreTheorems

/-! # Property theorems: storing into an object of format 8.3.8 with two levels (C23, C25) -/

namespace Verif.Object
open Verif

theorem own_two {pages : List Bytes} {P h : Nat} {tabs datas : List Nat} (hf : Spec.File838Two pages P h tabs datas) :
    Spec.Own pages (Spec.file838two P) h datas := by
  obtain ⟨hp, r1, r2⟩ := hf.root
  have hnd := hf.distinct
  rw [List.nodup_cons, List.nodup_append] at hnd
  have htab : ∀ k (hk : k < datas.length), ∃ t tp, tabs[k / (P / 4)]? = some t ∧ Spec.word hp (24 + 4 * (k / (P / 4))) = some t ∧
      pages[t]? = some tp ∧ Spec.word tp (4 * (k % (P / 4))) = some datas[k] := by
    intro k hk
    obtain ⟨t, tp, a, b, c⟩ := hf.entry k hk
    have hlt := getElem?_some_lt a
    refine ⟨t, tp, a, ?_, b, c⟩
    rw [r2 _ hlt, ← List.getElem?_eq_getElem hlt]
    exact a
  refine ⟨?_, fun q hq => hf.present q (by simp [hq]), hnd.2.2.1, fun hh => hnd.1 (by simp [hh]), ?_⟩
  · intro k hk
    obtain ⟨t, tp, a, b, c, d⟩ := htab k hk
    unfold Spec.dataPage
    simp only [Spec.file838two, r1, Option.bind_eq_bind, Option.bind_some, b, c, Nat.zero_add, d]
  · intro k t hk ht
    obtain ⟨t', tp, a, b, _, _⟩ := htab k hk
    unfold Spec.tablePage at ht
    simp only [Spec.file838two, r1, Option.bind_eq_bind, Option.bind_some, b] at ht
    cases ht
    exact ⟨fun hh => hnd.2.2.2 t (List.mem_of_getElem? a) t hh rfl, fun x => hnd.1 (by rw [← x]; simp [List.mem_of_getElem? a])⟩

theorem own_one {pages : List Bytes} {h : Nat} {datas : List Nat} (hf : Spec.File838One pages h datas) :
    Spec.Own pages Spec.file838one h datas := by
  obtain ⟨hp, r1, r2⟩ := hf.root
  have hnd := hf.distinct
  rw [List.nodup_cons] at hnd
  refine ⟨?_, hf.present, hnd.2, hnd.1, ?_⟩
  · intro k hk
    unfold Spec.dataPage
    simp only [Spec.file838one, r1, Option.bind_eq_bind, Option.bind_some, r2 k hk]
  · intro k t _ ht
    unfold Spec.tablePage at ht
    simp [Spec.file838one, r1] at ht

/-- A store inside a whole object. -/
theorem put_inside_838 (e : Env) (hP : 24 ≤ e.P) (s : St) (o : Obj) (tabs datas : List Nat) (ha : Appending e s)
    (ho : Opened838Two e s o tabs datas) (start : Nat) (buf : Bytes) (hb : buf ≠ [])
    (hin : start + buf.length ≤ o.len) :
    ∃ s' o', putRange e s o start buf = .ok (s', o') ∧ Appending e s' ∧ Opened838Two e s' o' tabs datas ∧ o'.len = o.len ∧
      o'.block = o.block ∧ s'.pages.length = s.pages.length ∧
      (∀ q, q ∉ datas → q ≠ o.block → s'.pages[q]? = s.pages[q]?) ∧
      (∀ i, i < o.len → Spec.byteAt s'.pages e.P (Spec.file838two e.P) o.block i =
        if start ≤ i ∧ i < start + buf.length then buf[i - start]?
        else Spec.byteAt s.pages e.P (Spec.file838two e.P) o.block i) := by
  have hpos : 0 < buf.length := List.length_pos_iff.mpr hb
  have hP0 : 0 < e.P := by omega
  have hper : 0 < e.P / 4 := by omega
  have hmod := Nat.mod_lt start hP0
  have hat : start / e.P * e.P + start % e.P = start := by rw [Nat.mul_comm]; exact Nat.div_add_mod start e.P
  have hcov : o.len ≤ datas.length * e.P := by
    rw [ho.nDatas]
    have h1 := Nat.div_add_mod (o.len + e.P - 1) e.P
    have h2 := Nat.mod_lt (o.len + e.P - 1) hP0
    rw [Nat.mul_comm]
    omega
  have hnd := ho.file.distinct
  rw [List.nodup_cons, List.nodup_append] at hnd
  have htab : ∀ j (hj : j < datas.length), ∃ t tp, o.blocks[j / (e.P / 4)]? = some t ∧ t ∉ datas ∧ s.pages[t]? = some tp ∧
      Spec.word tp (0 + 4 * (j % (e.P / 4))) = some datas[j] := by
    intro j hj
    obtain ⟨t, tp, a, b, c⟩ := ho.file.entry j hj
    refine ⟨t, tp, by rw [ho.loaded.blocks]; exact a, ?_, b, by rw [Nat.zero_add]; exact c⟩
    intro hh
    exact hnd.2.2.2 t (List.mem_of_getElem? a) t hh rfl
  have hk : start / e.P < datas.length := (Nat.div_lt_iff_lt_mul hP0).mpr (by omega)
  have hown := own_two ho.file
  obtain ⟨t, tp, ht1, ht2, ht3, ht4⟩ := htab _ hk
  obtain ⟨s1, hs1, hw⟩ := putTab_ok e e.P (e.P / 4) 0 rfl hP0 hper datas o.blocks hown.nodup buf.length s
    (start / e.P) (start % e.P) t buf ha.full hown.exists_ htab hmod (Nat.le_refl _) (by omega) (fun _ => ht1)
  rw [hat] at hw
  obtain ⟨hp, h1, h2⟩ := ho.loaded.header
  have hhd : o.block ∉ datas := fun hh => hnd.1 (by simp [hh])
  have hp1 : s1.pages[o.block]? = some hp := by rw [hw.frame _ hhd]; exact h1
  have hf1 : Spec.File838Two s1.pages e.P o.block tabs datas := by
    obtain ⟨hp0, r1, r2⟩ := ho.file.root
    rw [h1] at r1; cases r1
    refine ⟨⟨hp, hp1, r2⟩, ?_, fun q hq => by rw [hw.len]; exact ho.file.present q hq, ho.file.distinct⟩
    intro k hk
    obtain ⟨t, tp, a, b, c⟩ := ho.file.entry k hk
    exact ⟨t, tp, a, by rw [hw.frame t (fun hh => hnd.2.2.2 t (List.mem_of_getElem? a) t hh rfl)]; exact b, c⟩
  obtain ⟨s2, hp2, c1, c2, c3, c4, c5, c6, c7⟩ := finish_838 e s1 o hP hw.full ho.loaded.kind hp hp1 o.fatlevel o.len h2
  have hf2 := file838two_header hf1 hp1 c5 c7 c4 (by omega)
  have hframe : ∀ q, q ∉ datas → q ≠ o.block → s2.pages[q]? = s.pages[q]? := by
    intro q x y
    rw [c4 q y, hw.frame q x]
  refine ⟨s2, { o with recorded := true }, ?_, ⟨by rw [c2.fr, hw.fr]; exact ha.block, by rw [c2.fr, hw.fr]; exact ha.len, c2.full⟩,
    ⟨⟨ho.loaded.kind, ho.loaded.blocks, ho.loaded.numblocks, hp2, c5, c6⟩, ho.fat, ho.nDatas, ho.nTabs, hf2, ho.zero⟩, rfl, rfl,
    by rw [c3, hw.len], hframe, ?_⟩
  · unfold putRange
    simp only [ho.loaded.kind]
    rw [if_pos ho.fat]
    unfold writeTab
    simp only [(idx_ok _ _ _).mpr ht1, (getPage_ok _ _ _).mpr ht3, Outcome.ok_bind, hs1]
    rw [c1]
    simp only [ho.loaded.kind]
  · intro i hi
    have hil : i / e.P < datas.length := (Nat.div_lt_iff_lt_mul hP0).mpr (by omega)
    rw [byteAt_own (own_two hf2) _ _ hil, byteAt_own hown _ _ hil, ← hw.bytes i]
    unfold fileByte
    rw [List.getElem?_eq_getElem hil]
    simp only [Option.bind_some]
    rw [c4 _ (fun x => hhd (by rw [← x]; exact List.getElem_mem hil))]

/-- The effect of a store on the bytes of a file whose pages were found by `sh` and are found
by two levels afterwards. -/
def Spec.Stored838 (s s' : St) (P : Nat) (sh : Spec.Shape) (h : Nat) (len start : Nat) (buf : Bytes) : Prop :=
  (∀ i, i < buf.length → Spec.byteAt s'.pages P (Spec.file838two P) h (start + i) = buf[i]?) ∧
  (∀ i, i < len → (i < start ∨ start + buf.length ≤ i) →
    Spec.byteAt s'.pages P (Spec.file838two P) h i = Spec.byteAt s.pages P sh h i)

theorem setLen838_none (e : Env) (fuel : Nat) (s : St) (o : Obj) (n : Nat) (hne : o.len ≠ n) :
    setLen838 e fuel s { o with data := none } n = setLen838 e fuel s o n := by
  unfold setLen838
  simp only
  rw [if_neg hne, if_neg hne]
  rfl

/-- A store that has made the object grow. -/
theorem store_grown (e : Env) (hP : 24 ≤ e.P) (fuel : Nat) (s s1 : St) (o o1 : Obj) (sh : Spec.Shape) (tabs datas tabs' datas' : List Nat)
    (start : Nat) (buf : Bytes) (hb : buf ≠ []) (hc : o.len < start + buf.length) (hk : o.kind = .data838)
    (hown : Spec.Own s.pages sh o.block datas) (hd : datas.length = (o.len + e.P - 1) / e.P) (h0 : 0 ∉ datas) (ht : ∀ q ∈ datas, q ∉ tabs)
    (hs : setLen838 e fuel s o (start + buf.length) = .ok (some (s1, o1)))
    (hg : Spec.Grew838 e s o tabs datas (start + buf.length) s1 o1 tabs' datas') :
    ∃ s' o', setData838 e false fuel s o start buf = .ok (some (s', o')) ∧ Appending e s' ∧
      Opened838Two e s' o' (tabs ++ tabs') (datas ++ datas') ∧ o'.len = start + buf.length ∧ o'.block = o.block ∧
      Spec.Stored838 s s' e.P sh o.block o.len start buf ∧ s'.pages.length = s.pages.length + tabs'.length + datas'.length ∧
      (∀ q ∈ tabs' ++ datas', s.pages.length ≤ q) ∧
      (∀ q, q < s.pages.length → q ≠ 0 → q ∉ o.block :: (tabs ++ datas) → s'.pages[q]? = s.pages[q]?) := by
  have hP0 : 0 < e.P := by omega
  obtain ⟨s2, o2, b1, b2, b3, b4, b5, b6, b7, b8⟩ := put_inside_838 e hP s1 o1 _ _ hg.appending hg.opened start buf hb
    (by rw [hg.len]; exact Nat.le_refl _)
  rw [hg.block] at b7 b8
  refine ⟨s2, o2, ?_, b2, b3, b4.trans hg.len, b5.trans hg.block, ⟨?_, ?_⟩, b6.trans hg.count, hg.fresh, ?_⟩
  · unfold setData838
    rw [if_neg (by simp), if_neg (by simp [hk]), if_pos hc, setLen838_none e fuel s o _ (by omega), hs]
    simp only [Outcome.ok_bind, b1]
  · intro i hi
    rw [b8 (start + i) (by rw [hg.len]; omega), if_pos (by omega)]
    congr 1; omega
  · intro i hi hout
    rw [b8 i (by rw [hg.len]; omega), if_neg (by omega)]
    have hcov : o.len ≤ datas.length * e.P := by
      rw [hd]
      have h1 := Nat.div_add_mod (o.len + e.P - 1) e.P
      have h2 := Nat.mod_lt (o.len + e.P - 1) hP0
      rw [Nat.mul_comm]
      omega
    have hil : i / e.P < datas.length := (Nat.div_lt_iff_lt_mul hP0).mpr (by omega)
    have hf1 := own_two hg.opened.file
    rw [hg.block] at hf1
    rw [byteAt_own hf1 _ _ (by rw [List.length_append]; omega), byteAt_own hown _ _ hil]
    unfold fileByte
    rw [List.getElem?_append_left hil, List.getElem?_eq_getElem hil]
    simp only [Option.bind_some]
    have hm := List.getElem_mem hil
    rw [hg.frame _ (hown.exists_ _ hm) (fun x => h0 (by rw [← x]; exact hm)) (fun x => hown.header (by rw [← x]; exact hm)) (ht _ hm)]
  · intro q h1 h2 h3
    simp only [List.mem_cons, List.mem_append, not_or] at h3
    rw [b7 q ?_ h3.1]
    · exact hg.frame q h1 h2 h3.1 h3.2.1
    · intro hh
      rcases List.mem_append.mp hh with hh | hh
      · exact h3.2.2 hh
      · have := hg.fresh q (by simp [hh]); omega

/-- **C23 and C25, format 8.3.8, two levels.** Storing bytes at any position of an object with
two levels — inside, across its end, or beyond it — succeeds up to the length for which the
root list may be read four times over: the object then has the length `max len (start + size)`,
the range holds the stored bytes, the other bytes it had are unchanged, and no page of another object has
changed. Assumes that writing past the end of the root vector does no harm (`slack`). -/
theorem store_838_two_partial (e : Env) (hP : 24 ≤ e.P) (fuel : Nat) (s : St) (o : Obj) (tabs datas : List Nat)
    (ha : Appending e s) (ho : Opened838Two e s o tabs datas) (hpos : 0 < o.len) (htwo : e.P / 4 - 6 < datas.length)
    (start : Nat) (buf : Bytes) (hb : buf ≠ []) (hmax : start + buf.length ≤ maxLen838 e.P)
    (hread : 24 + 16 * (((start + buf.length + e.P - 1) / e.P + e.P / 4 - 1) / (e.P / 4)) ≤ e.P)
    (hslack : 3 * (((start + buf.length + e.P - 1) / e.P + e.P / 4 - 1) / (e.P / 4)) ≤ e.slack)
    (hsm : s.pages.length + 2 * ((start + buf.length + e.P - 1) / e.P) ≤ 2 ^ 32) :
    ∃ s' o' tabs' datas', setData838 e false fuel s o start buf = .ok (some (s', o')) ∧ Appending e s' ∧
      Opened838Two e s' o' (tabs ++ tabs') (datas ++ datas') ∧ o'.len = max o.len (start + buf.length) ∧ o'.block = o.block ∧
      Spec.Stored838 s s' e.P (Spec.file838two e.P) o.block o.len start buf ∧ (∀ q ∈ tabs' ++ datas', s.pages.length ≤ q) ∧
      s'.pages.length = s.pages.length + tabs'.length + datas'.length ∧
      (∀ q, q < s.pages.length → q ≠ 0 → q ∉ o.block :: (tabs ++ datas) → s'.pages[q]? = s.pages[q]?) := by
  rcases Nat.lt_or_ge o.len (start + buf.length) with hc | hc
  · have hmono : datas.length ≤ (start + buf.length + e.P - 1) / e.P := by
      rw [ho.nDatas]; exact Nat.div_le_div_right (by omega)
    obtain ⟨s1, o1, tabs', datas', a1, a2⟩ := set_len_grow_838_two_partial e hP fuel s o tabs datas (start + buf.length) ha ho hpos hc
      hmax (by omega) hread hslack hsm
    have hnd := ho.file.distinct
    rw [List.nodup_cons, List.nodup_append] at hnd
    obtain ⟨s2, o2, b1, b2, b3, b4, b5, b6, bc, b7, b8⟩ := store_grown e hP fuel s s1 o o1 (Spec.file838two e.P) tabs datas tabs' datas' start buf hb hc
      ho.loaded.kind (own_two ho.file) ho.nDatas (fun x => ho.zero (by simp [x]))
      (fun q hq hh => hnd.2.2.2 q hh q hq rfl) a1 a2
    exact ⟨s2, o2, tabs', datas', b1, b2, b3, by rw [b4]; omega, b5, b6, b7, bc, b8⟩
  · have ho' : Opened838Two e s { o with data := none } tabs datas :=
      ⟨⟨ho.loaded.kind, ho.loaded.blocks, ho.loaded.numblocks, ho.loaded.header⟩, ho.fat, ho.nDatas, ho.nTabs, ho.file, ho.zero⟩
    obtain ⟨s2, o2, b1, b2, b3, b4, b5, b6, b7, b8⟩ := put_inside_838 e hP s { o with data := none } tabs datas ha ho' start buf hb hc
    refine ⟨s2, o2, [], [], ?_, b2, by simpa using b3, by rw [b4]; simp; omega, b5, ⟨?_, ?_⟩, by simp, b6, ?_⟩
    · unfold setData838
      rw [if_neg (by simp), if_neg (by simp [ho.loaded.kind]), if_neg (by omega), b1]
      rfl
    · intro i hi
      rw [b8 (start + i) (by show start + i < o.len; omega), if_pos (by omega)]
      congr 1; omega
    · intro i hi hout
      rw [b8 i hi, if_neg (by omega)]
    · intro q _ _ h3
      simp only [List.mem_cons, List.mem_append, not_or] at h3
      exact b7 q h3.2.2 h3.1

/-- **C23 and C25, format 8.3.8, from one level to two.** The same for a store that makes an
object with one level outgrow it. -/
theorem store_838_cross_partial (e : Env) (hP : 28 ≤ e.P) (fuel : Nat) (s : St) (o : Obj) (D : List Nat)
    (ha : Appending e s) (h0 : 0 ∉ o.block :: D) (ho : Loaded838 s o D) (hfat : o.fatlevel = 0)
    (hf : Spec.File838One s.pages o.block D) (hD : D.length = (o.len + e.P - 1) / e.P) (hone : D.length ≤ e.P / 4 - 6)
    (hpos : 0 < o.len) (start : Nat) (buf : Bytes) (hb : buf ≠ []) (hmax : start + buf.length ≤ maxLen838 e.P)
    (htwo : e.P / 4 - 6 < (start + buf.length + e.P - 1) / e.P)
    (hread : 24 + 16 * (((start + buf.length + e.P - 1) / e.P + e.P / 4 - 1) / (e.P / 4)) ≤ e.P)
    (hslack : 3 * (((start + buf.length + e.P - 1) / e.P + e.P / 4 - 1) / (e.P / 4)) ≤ e.slack)
    (hsm : s.pages.length + 2 * ((start + buf.length + e.P - 1) / e.P) < 2 ^ 32) :
    ∃ s' o' tabs' datas', setData838 e false fuel s o start buf = .ok (some (s', o')) ∧ Appending e s' ∧
      Opened838Two e s' o' tabs' (D ++ datas') ∧ o'.len = start + buf.length ∧ o'.block = o.block ∧
      Spec.Stored838 s s' e.P Spec.file838one o.block o.len start buf ∧ (∀ q ∈ tabs' ++ datas', s.pages.length ≤ q) ∧
      s'.pages.length = s.pages.length + tabs'.length + datas'.length ∧
      (∀ q, q < s.pages.length → q ≠ 0 → q ∉ o.block :: D → s'.pages[q]? = s.pages[q]?) := by
  have hc : o.len < start + buf.length := by
    rcases Nat.lt_or_ge o.len (start + buf.length) with h | h
    · exact h
    · have : (start + buf.length + e.P - 1) / e.P ≤ (o.len + e.P - 1) / e.P := Nat.div_le_div_right (by omega)
      omega
  obtain ⟨s1, o1, tabs', datas', a1, a2⟩ := set_len_grow_838_cross_partial e hP fuel s o D (start + buf.length) ha h0 ho hfat hf hD hone
    hpos hc hmax htwo hread hslack hsm
  obtain ⟨s2, o2, b1, b2, b3, b4, b5, b6, bc, b7, b8⟩ := store_grown e (by omega) fuel s s1 o o1 Spec.file838one [] D tabs' datas' start buf hb hc
    ho.kind (own_one hf) hD (fun x => h0 (by simp [x])) (fun q _ => by simp) a1 a2
  exact ⟨s2, o2, tabs', datas', b1, b2, by simpa using b3, b4, b5, b6, b7, bc, by simpa using b8⟩

/-! ## Histories of stores -/

/-- A sequence of stores. -/
def runStores838 (e : Env) (fuel : Nat) : St → Obj → List (Nat × Bytes) → Outcome (Option (St × Obj))
  | s, o, [] => .ok (some (s, o))
  | s, o, (start, buf) :: ws => do
    match ← setData838 e false fuel s o start buf with
    | none => .ok none
    | some (s, o) => runStores838 e fuel s o ws

/-- The file agrees with the contents wherever they are known. -/
def Spec.Agrees838 (pages : List Bytes) (P h : Nat) (c : List (Option UInt8)) : Prop :=
  ∀ i x, (c[i]?).join = some x → Spec.byteAt pages P (Spec.file838two P) h i = some x

theorem store_agrees_838 {s s' : St} {P h len start : Nat} {buf : Bytes} {c : List (Option UInt8)}
    (hs : Spec.Stored838 s s' P (Spec.file838two P) h len start buf)
    (hc : c.length = len) (ha : Spec.Agrees838 s.pages P h c) : Spec.Agrees838 s'.pages P h (Spec.write c start buf) := by
  intro i x hx
  rw [write_get] at hx
  split at hx
  · next hin =>
    have := hs.1 (i - start) (by omega)
    rw [show start + (i - start) = i by omega] at this
    rw [this, hx]
  · next hout =>
    have hi : i < len := by
      rw [← hc]
      rcases Nat.lt_or_ge i c.length with h | h
      · exact h
      · rw [List.getElem?_eq_none h] at hx; cases hx
    rw [hs.2 i hi (by omega)]
    exact ha i x hx

/-- The number of tables for a length. -/
def Spec.tables838 (P n : Nat) : Nat := ((n + P - 1) / P + P / 4 - 1) / (P / 4)

theorem tables838_mono (P : Nat) {a b : Nat} (h : a ≤ b) : Spec.tables838 P a ≤ Spec.tables838 P b := by
  unfold Spec.tables838
  refine Nat.div_le_div_right ?_
  have : (a + P - 1) / P ≤ (b + P - 1) / P := Nat.div_le_div_right (by omega)
  omega

theorem tables838_le (P n : Nat) (hP : 4 ≤ P) : Spec.tables838 P n ≤ (n + P - 1) / P := by
  unfold Spec.tables838
  have hper : 0 < P / 4 := by omega
  rcases Nat.eq_zero_or_pos ((n + P - 1) / P) with h | h
  · rw [h, Nat.zero_add, Nat.div_eq_of_lt (by omega)]; exact Nat.le_refl _
  · rw [Nat.div_le_iff_le_mul_add_pred hper]
    have : 1 * ((n + P - 1) / P) ≤ P / 4 * ((n + P - 1) / P) := Nat.mul_le_mul_right _ hper
    omega

/-- **C23 and C25, histories, format 8.3.8 with two levels.** Every sequence of stores at
arbitrary positions up to length `M` leaves the object with the contents the sequence
describes and every other object untouched. -/
theorem store_history_838_two_partial (e : Env) (hP : 24 ≤ e.P) (fuel M : Nat) (hM : M ≤ maxLen838 e.P)
    (hread : 24 + 16 * Spec.tables838 e.P M ≤ e.P) (hslack : 3 * Spec.tables838 e.P M ≤ e.slack) (ws : List (Nat × Bytes)) :
    ∀ (s : St) (o : Obj) (tabs datas : List Nat) (c : List (Option UInt8)), Appending e s → Opened838Two e s o tabs datas →
    0 < o.len → o.len ≤ M → e.P / 4 - 6 < datas.length → c.length = o.len → Spec.Agrees838 s.pages e.P o.block c →
    (∀ w ∈ ws, w.2 ≠ [] ∧ w.1 + w.2.length ≤ M) → s.pages.length + 4 * ((M + e.P - 1) / e.P) ≤ 2 ^ 32 + tabs.length + datas.length →
    ∃ s' o', runStores838 e fuel s o ws = .ok (some (s', o')) ∧
      o'.len = (ws.foldl (fun c w => Spec.write c w.1 w.2) c).length ∧ o'.block = o.block ∧
      Spec.Agrees838 s'.pages e.P o.block (ws.foldl (fun c w => Spec.write c w.1 w.2) c) ∧
      (∀ q, q < s.pages.length → q ≠ 0 → q ∉ o.block :: (tabs ++ datas) → s'.pages[q]? = s.pages[q]?) := by
  induction ws with
  | nil =>
    intro s o tabs datas c _ _ _ _ _ hc ha _ _
    exact ⟨s, o, rfl, hc.symm, rfl, ha, fun _ _ _ _ => rfl⟩
  | cons w ws ih =>
    obtain ⟨start, buf⟩ := w
    intro s o tabs datas c ha ho hpos hoM htwo hc hag hws hroom
    obtain ⟨hb, hmax⟩ := hws (start, buf) (by simp)
    simp only at hb hmax
    have hT := tables838_mono e.P hmax
    have hTM := tables838_le e.P M (by omega)
    have hcl : (start + buf.length + e.P - 1) / e.P ≤ (M + e.P - 1) / e.P := Nat.div_le_div_right (by omega)
    have hdl : datas.length ≤ (M + e.P - 1) / e.P := by rw [ho.nDatas]; exact Nat.div_le_div_right (by omega)
    have htl : tabs.length ≤ Spec.tables838 e.P M := by
      have := tables838_mono e.P hoM
      rw [ho.nTabs, ho.nDatas]
      exact this
    obtain ⟨s1, o1, t1, d1, a1, a2, a3, a4, a5, a6, a7, a8, a9⟩ := store_838_two_partial e hP fuel s o tabs datas ha ho hpos htwo start buf hb
      (by omega) (by show 24 + 16 * Spec.tables838 e.P (start + buf.length) ≤ e.P; omega)
      (by show 3 * Spec.tables838 e.P (start + buf.length) ≤ e.slack; omega) (by omega)
    obtain ⟨s2, o2, b1, b2, b3, b4, b5⟩ := ih s1 o1 _ _ (Spec.write c start buf) a2 a3 (by omega) (by omega)
      (by rw [List.length_append]; omega) (by rw [a4, ← hc, write_length]) (by rw [a5]; exact store_agrees_838 a6 hc hag)
      (fun w hw => hws w (by simp [hw])) (by simp only [List.length_append]; omega)
    refine ⟨s2, o2, ?_, b2, b3.trans a5, by rw [← a5]; exact b4, ?_⟩
    · unfold runStores838
      simp only [a1, Outcome.ok_bind, b1]
    · intro q h1 h2 h3
      rw [b5 q (by omega) h2 ?_, a9 q h1 h2 h3]
      rw [a5]
      intro hh
      simp only [List.mem_cons, List.mem_append, not_or] at h3 hh
      rcases hh with hh | (hh | hh) | hh | hh
      · exact h3.1 hh
      · exact h3.2.1 hh
      · have := a7 q (by simp [hh]); omega
      · exact h3.2.2 hh
      · have := a7 q (by simp [hh]); omega

/-! ## Cases that meet the hypotheses -/

theorem onePage838_full : ∀ p ∈ onePage838.pages, p.length = 64 := by decide

def onePageObj : Obj := ⟨.data838, 2, 64, 0, 1, 0, [3], none, 0, 0, 1, 0, false⟩

theorem onePage838_init : init onePage838.pages 64 true 2 = .ok onePageObj := by decide +kernel

theorem onePage838_appending (ora : Nat → Bool) (slack : Nat) : Appending ⟨64, ora, slack⟩ onePage838 := ⟨rfl, rfl, onePage838_full⟩

theorem onePage838_loaded : Loaded838 onePage838 onePageObj [3] := by
  refine ⟨rfl, rfl, rfl, [0x1c, 0xfd, 0, 0] ++ List.replicate 12 0 ++ [64, 0, 0, 0, 0, 0, 0, 0] ++ [3, 0, 0, 0] ++ List.replicate 36 0, rfl, ?_⟩
  exact ⟨by decide, ⟨64796, by decide, by decide⟩, 64, 0, by decide, by decide, rfl⟩

theorem onePage838_file : Spec.File838One onePage838.pages 2 [3] := by
  refine ⟨⟨_, rfl, ?_⟩, by decide, by decide⟩
  intro k hk
  revert k
  decide

/-- Non-vacuity: a file of one page of 64 bytes grows to four pages. -/
example : ∃ s' o', setLen838 ⟨64, fun _ => false, 0⟩ 9 onePage838 onePageObj 256 = .ok (some (s', o')) ∧
    ∃ o2, init s'.pages 64 true 2 = .ok o2 ∧ o2.len = 256 ∧ o2.blocks = [3, 4, 5, 6] := by
  obtain ⟨s', o', D', a1, a2, ⟨o2, a3, a4, a5, a6⟩, _⟩ := set_len_grow_838_one_partial ⟨64, fun _ => false, 0⟩ (by simp) 9 onePage838 onePageObj [3] 256
    (onePage838_appending _ _) (by decide) (by decide) onePage838_loaded rfl onePage838_file (by decide) (by decide) (by decide) (by decide)
    (by simp) (by simp) (by simp) (by decide)
  exact ⟨s', o', a1, o2, a3, a4, by rw [a6, a2]; rfl⟩

/-- Non-vacuity: and to two, if read strictly, it does not. -/
example : setLen838 ⟨64, fun _ => false, 0⟩ 9 onePage838 onePageObj 128 = .ub :=
  set_len_838_one_overflows ⟨64, fun _ => false, 0⟩ (by simp) 9 onePage838 onePageObj [3] 128
    (onePage838_appending _ _) (by decide) onePage838_loaded rfl onePage838_file (by decide) (by decide) (by decide) (by decide)
    (by simp) (by simp) rfl (by simp) (by decide)

/-- Non-vacuity: a store beyond the tenth page gives the file a second level; the bytes it
had are still there, and a sequence of further stores does what it says. -/
example : ∃ s' o' s'' o'', setData838 ⟨64, fun _ => false, 6⟩ false 9 onePage838 onePageObj 700 [1, 2] = .ok (some (s', o')) ∧
    runStores838 ⟨64, fun _ => false, 6⟩ 9 s' o' [(0, [5]), (1200, [6, 7])] = .ok (some (s'', o'')) ∧ o''.len = 1202 ∧
    Spec.byteAt s''.pages 64 (Spec.file838two 64) 2 701 = some 2 ∧ Spec.byteAt s''.pages 64 (Spec.file838two 64) 2 0 = some 5 ∧
    Spec.byteAt s''.pages 64 (Spec.file838two 64) 2 63 = some 7 ∧ Spec.byteAt s''.pages 64 (Spec.file838two 64) 2 1201 = some 7 := by
  obtain ⟨s', o', tabs, datas, a1, a2, a3, a4, a5, a6, a7, a8, a9⟩ := store_838_cross_partial ⟨64, fun _ => false, 6⟩ (by simp) 9 onePage838 onePageObj [3]
    (onePage838_appending _ _) (by decide) onePage838_loaded rfl onePage838_file (by decide) (by decide) (by decide) 700 [1, 2] (by decide)
    (by decide) (by simp) (by simp) (by simp) (by decide)
  have hlen : o'.len = 702 := a4
  have hD : ([3] ++ datas : List Nat).length = 11 := by
    have := a3.nDatas
    rw [hlen] at this
    exact this.trans (by decide)
  have hT : tabs.length = 1 := by
    have := a3.nTabs
    rw [hD] at this
    exact this.trans (by decide)
  have hc : s'.pages.length = 15 := by
    rw [a8, hT]
    simp only [List.length_append, List.length_singleton] at hD
    have : onePage838.pages.length = 4 := rfl
    omega
  have hb : o'.block = 2 := a5
  obtain ⟨s'', o'', b1, b2, b3, b4, b5⟩ := store_history_838_two_partial ⟨64, fun _ => false, 6⟩ (by simp) 9 1202 (by decide) (by decide) (by decide)
    [(0, [5]), (1200, [6, 7])] s' o' tabs ([3] ++ datas)
    (List.replicate 63 none ++ ([some 7] ++ (List.replicate 636 none ++ [some 1, some 2])))
    a2 a3 (by omega) (by omega) (by rw [hD]; decide) (by rw [hlen]; decide +kernel)
    (by
      intro i x hx
      rw [hb]
      rw [List.getElem?_append, List.length_replicate] at hx
      split at hx
      · rename_i h1
        rw [List.getElem?_replicate, if_pos h1] at hx
        cases hx
      · rename_i h1
        rw [List.getElem?_append, List.length_singleton] at hx
        split at hx
        · rename_i h2
          have h63 : i = 63 := by omega
          subst h63
          cases hx
          rw [show (2 : Nat) = onePageObj.block from rfl, a6.2 63 (by decide) (.inl (by decide))]
          decide
        · rw [List.getElem?_append, List.length_replicate] at hx
          split at hx
          · rename_i h2 h3
            rw [List.getElem?_replicate, if_pos h3] at hx
            cases hx
          · have h3 : i < 702 := by
              rcases Nat.lt_or_ge i 702 with h | h
              · exact h
              · rw [List.getElem?_eq_none (by simp only [List.length_cons, List.length_nil]; omega)] at hx; cases hx
            have := a6.1 (i - 700) (by simp only [List.length_cons, List.length_nil]; omega)
            rw [show 700 + (i - 700) = i by omega] at this
            rw [show (2 : Nat) = onePageObj.block from rfl, this]
            rcases (show i = 700 ∨ i = 701 by omega) with h | h <;> subst h <;> exact hx)
    (by decide) (by rw [hc, hT, hD]; decide)
  rw [hb] at b4
  simp only [List.foldl_cons, List.foldl_nil] at b2 b4
  refine ⟨s', o', s'', o'', a1, b1, ?_, ?_, ?_, ?_, ?_⟩
  · rw [b2]; decide +kernel
  · apply b4; decide +kernel
  · apply b4; decide +kernel
  · apply b4; decide +kernel
  · apply b4; decide +kernel

/-- A file without contents: header page 2. -/
def noPage838 : St :=
  ⟨[List.replicate 64 9, [0x1c, 0xff] ++ List.replicate 62 0, [0x1c, 0xfd] ++ List.replicate 62 0],
    ⟨.free838, 1, 0, 0, 0, 0, [], none, 0, 0, 1, 0, false⟩, 0⟩

/-- **Finding (C25, C23).** A file of format 8.3.8 without contents that gets two levels at once
has an empty first table: storing 11 pages puts the first of them over page 0, the header of the
database, without an error. -/
theorem grow_838_empty_first_table :
    ((init noPage838.pages 64 true 2).bind fun o =>
      (setData838 ⟨64, fun _ => false, 9⟩ false 9 noPage838 o 0 (List.replicate 704 5)).bind fun r =>
      .ok (r.map fun x => x.1.pages[0]?)) = .ok (some (some (List.replicate 64 5))) := by decide +kernel

end Verif.Object
