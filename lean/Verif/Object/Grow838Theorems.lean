import Verif.Object.Grow838

/-! # Property theorems: growing an object of format 8.3.8 (C25) -/

namespace Verif.Object
open Verif

/-- The first 24 bytes of a header page of format 8.3.8, apart from the version: the signature,
the number of levels and the length. -/
structure Spec.Head838 (hp : Bytes) (fat len : Nat) : Prop where
  sig : hp.take 2 = [0x1c, 0xfd]
  fat : ∃ w, Spec.word hp 0 = some w ∧ w / 65536 = fat
  len : ∃ lo hi, Spec.word hp 16 = some lo ∧ Spec.word hp 20 = some hi ∧ len = lo + 2 ^ 32 * hi

/-- The object in memory is what opening the file gives. `root` is the list on the header page. -/
structure Loaded838 (s : St) (o : Obj) (root : List Nat) : Prop where
  kind : o.kind = .data838
  blocks : o.blocks = root
  numblocks : o.numblocks = root.length
  header : ∃ hp, s.pages[o.block]? = some hp ∧ Spec.Head838 hp o.fatlevel o.len

theorem head_congr {hp hp' : Bytes} {fat len : Nat} (h : Spec.Head838 hp fat len)
    (hc : ∀ i, i < 4 ∨ (12 ≤ i ∧ i < 24) → hp'[i]? = hp[i]?) : Spec.Head838 hp' fat len := by
  refine ⟨?_, ?_, ?_⟩
  · rw [← h.sig]
    apply List.ext_getElem?
    intro i
    rw [List.getElem?_take, List.getElem?_take]
    split
    · exact hc i (by omega)
    · rfl
  · obtain ⟨w, a, b⟩ := h.fat
    exact ⟨w, by rw [← a]; exact word_of_get _ _ _ (fun i _ _ => hc i (by omega)), b⟩
  · obtain ⟨lo, hi, a, b, c⟩ := h.len
    exact ⟨lo, hi, by rw [← a]; exact word_of_get _ _ _ (fun i _ _ => hc i (by omega)),
      by rw [← b]; exact word_of_get _ _ _ (fun i _ _ => hc i (by omega)), c⟩

/-- Storing the length. -/
theorem head_len {hp : Bytes} {fat len : Nat} (h : Spec.Head838 hp fat len) (n : Nat) (hn : n < 2 ^ 64) (hl : 24 ≤ hp.length) :
    Spec.Head838 (splice hp 16 (le32 n ++ le32 (n / 2 ^ 32))) fat n := by
  have hb : (le32 n ++ le32 (n / 2 ^ 32)).length = 8 := rfl
  refine ⟨by rw [take_splice _ _ _ _ (by rw [hb]; omega) (by omega)]; exact h.sig, ?_, n % 2 ^ 32, n / 2 ^ 32, ?_, ?_, ?_⟩
  · obtain ⟨w, a, b⟩ := h.fat
    exact ⟨w, by rw [word_splice_out _ _ _ _ (by rw [hb]; omega) (by omega)]; exact a, b⟩
  · have h1 := word_splice_sub hp 16 (le32 n ++ le32 (n / 2 ^ 32)) 0 (by rw [hb]; omega) (by rw [hb]; omega)
    rw [Nat.add_zero] at h1
    rw [h1]
    simp only [Spec.word, le32, List.cons_append, List.nil_append, List.getElem?_cons_zero, List.getElem?_cons_succ,
      Nat.zero_add, Option.bind_eq_bind, Option.bind_some, Option.pure_def, Option.some.injEq]
    simp only [UInt8.toNat_ofNat']
    omega
  · have h1 := word_splice_sub hp 16 (le32 n ++ le32 (n / 2 ^ 32)) 4 (by rw [hb]; omega) (by rw [hb]; omega)
    rw [h1]
    simp only [Spec.word, le32, List.cons_append, List.nil_append, List.getElem?_cons_zero, List.getElem?_cons_succ,
      Nat.zero_add, Option.bind_eq_bind, Option.bind_some, Option.pure_def, Option.some.injEq]
    simp only [UInt8.toNat_ofNat']
    omega
  · omega

/-- Storing the number of levels. -/
theorem head_fat {hp : Bytes} {fat len : Nat} (h : Spec.Head838 hp fat len) (f : Nat) (hf : f < 256) (hl : 24 ≤ hp.length) :
    Spec.Head838 (splice hp 2 [UInt8.ofNat f, 0]) f len := by
  have hb : ([UInt8.ofNat f, 0] : Bytes).length = 2 := rfl
  refine ⟨by rw [take_splice _ _ _ _ (by rw [hb]; omega) (by omega)]; exact h.sig, ?_, ?_⟩
  · have g0 := splice_get_out hp 2 [UInt8.ofNat f, 0] 0 (by rw [hb]; omega) (by omega)
    have g1 := splice_get_out hp 2 [UInt8.ofNat f, 0] 1 (by rw [hb]; omega) (by omega)
    have g2 := splice_get_in hp 2 [UInt8.ofNat f, 0] 0 (by rw [hb]; omega) (by rw [hb]; omega)
    have g3 := splice_get_in hp 2 [UInt8.ofNat f, 0] 1 (by rw [hb]; omega) (by rw [hb]; omega)
    simp only [Nat.add_zero, List.getElem?_cons_zero, List.getElem?_cons_succ] at g2 g3
    have e0 : hp[0]? = some hp[0] := List.getElem?_eq_getElem (by omega)
    have e1 : hp[1]? = some hp[1] := List.getElem?_eq_getElem (by omega)
    refine ⟨hp[0].toNat + 256 * hp[1].toNat + 65536 * f, ?_, ?_⟩
    · unfold Spec.word
      rw [g0, e0, Nat.zero_add, g1, e1, Nat.zero_add, g2, Nat.zero_add, g3]
      simp only [Option.bind_eq_bind, Option.bind_some, Option.pure_def, Option.some.injEq, UInt8.toNat_ofNat']
      have : (0 : UInt8).toNat = 0 := rfl
      omega
    · have := hp[0].toNat_lt
      have := hp[1].toNat_lt
      omega
  · obtain ⟨lo, hi, a, b, c⟩ := h.len
    exact ⟨lo, hi, by rw [word_splice_out _ _ _ _ (by rw [hb]; omega) (by omega)]; exact a,
      by rw [word_splice_out _ _ _ _ (by rw [hb]; omega) (by omega)]; exact b, c⟩

theorem roundUp_ceil (len P : Nat) (hP : 0 < P) : roundUp len P = (len + P - 1) / P := by
  unfold roundUp
  split
  · rename_i h; subst h; exact (Nat.div_eq_of_lt (by omega)).symm
  · rw [show len + P - 1 = (len - 1) + P by omega, Nat.add_div_right _ hP]

theorem roundUp_ceil2 (len P per : Nat) (hP : 0 < P) (hper : 0 < per) :
    roundUp len (per * P) = ((len + P - 1) / P + per - 1) / per := by
  rw [← roundUp_ceil len P hP]
  unfold roundUp
  split
  · rw [Nat.zero_add]; exact (Nat.div_eq_of_lt (by omega)).symm
  · have h1 : ∀ x : Nat, x + 1 + per - 1 = x + per := fun x => by omega
    rw [h1, Nat.add_div_right _ hper, Nat.div_div_eq_div_mul, Nat.mul_comm]

/-- Opening a file whose header page reads so. -/
theorem init_838_of (pages : List Bytes) (P h fat len : Nat) (hp : Bytes) (root : List Nat) (hne : h ≠ 1) (h1 : pages[h]? = some hp)
    (hh : Spec.Head838 hp fat len) (hl : 24 ≤ hp.length) (hone : fat = 0 → len ≤ (P / 4 - 6) * P)
    (hr : ∀ k (hk : k < root.length), Spec.word hp (24 + 4 * k) = some root[k])
    (hn : root.length = if fat = 0 then roundUp len P else roundUp len (P / 4 * P)) :
    ∃ v1 v2, init pages P true h =
      .ok ⟨.data838, h, len, fat, root.length, 0, root, none, v1, v2, (v1 + 1) % 2 ^ 32, 0, false⟩ := by
  obtain ⟨w, f1, f2⟩ := hh.fat
  obtain ⟨lo, hi, l1, l2, l3⟩ := hh.len
  obtain ⟨v1, w1⟩ := word_some hp 4 (by omega)
  obtain ⟨v2, w2⟩ := word_some hp 8 (by omega)
  have hc : copyRoot hp 24 root.length = .ok root := by
    refine copyRoot_of_words hp _ 24 root rfl ?_
    intro k hk
    rw [hr k hk, List.getElem?_eq_getElem hk]
  refine ⟨v1, v2, ?_⟩
  unfold init
  rw [(getPage_ok _ _ _).mpr h1]
  simp only [Outcome.ok_bind, Bool.true_eq_false, if_false]
  rw [if_neg hne, if_neg (by simp [hh.sig]), (rd32_word _ _ _).mpr l1, (rd32_word _ _ _).mpr l2, (rd32_word _ _ _).mpr f1,
    (rd32_word _ _ _).mpr w1, (rd32_word _ _ _).mpr w2]
  simp only [Outcome.ok_bind, f2, ← l3, ← hn]
  have hno : ¬ (fat = 0 ∧ len > (P / 4 - 6) * P) := by
    intro hh
    have := hone hh.1
    omega
  rw [if_neg hno, hc]
  rfl

/-- The beginning of `set_len`: the new length is stored. -/
theorem start_838 (e : Env) (s : St) (o : Obj) (root : List Nat) (newLen : Nat) (hP : 24 ≤ e.P)
    (hf : ∀ p ∈ s.pages, p.length = e.P) (ho : Loaded838 s o root) (hn : newLen < 2 ^ 64) :
    ∃ s1 hp hp1, touch e s o.block true = .ok s ∧
      poke s o.block 16 (le32 newLen ++ le32 (newLen / 2 ^ 32)) = .ok s1 ∧
      Ext e s s1 [o.block] ∧ s1.pages.length = s.pages.length ∧ (∀ q, q ≠ o.block → s1.pages[q]? = s.pages[q]?) ∧
      s.pages[o.block]? = some hp ∧ s1.pages[o.block]? = some hp1 ∧ Spec.Head838 hp1 o.fatlevel newLen ∧
      ∀ i, 24 ≤ i → hp1[i]? = hp[i]? := by
  obtain ⟨hp, h1, h2⟩ := ho.header
  have hl := hf hp (List.mem_of_getElem? h1)
  have hb : (le32 newLen ++ le32 (newLen / 2 ^ 32)).length = 8 := rfl
  obtain ⟨s1, a1, a2, a3, a4, a5⟩ := poke838 e s hf o.block 16 (le32 newLen ++ le32 (newLen / 2 ^ 32)) hp h1 (by rw [hb]; omega)
  exact ⟨s1, hp, _, touch_read e s _ (getElem?_some_lt h1), a1, a2, a3, a5, h1, a4, head_len h2 newLen hn (by omega),
    fun i hi => splice_get_out _ _ _ _ (by rw [hb]; omega) (by rw [hb]; omega)⟩

/-- The end of `set_len`: the version is written. -/
theorem finish_838 (e : Env) (s : St) (o : Obj) (hP : 24 ≤ e.P) (hf : ∀ p ∈ s.pages, p.length = e.P) (hk : o.kind = .data838)
    (hp : Bytes) (h1 : s.pages[o.block]? = some hp) (fat len : Nat) (hh : Spec.Head838 hp fat len) :
    ∃ s' hp', writeVersion e s o = .ok (s', { o with recorded := true }) ∧ Ext e s s' [o.block] ∧
      s'.pages.length = s.pages.length ∧ (∀ q, q ≠ o.block → s'.pages[q]? = s.pages[q]?) ∧
      s'.pages[o.block]? = some hp' ∧ Spec.Head838 hp' fat len ∧ ∀ i, 24 ≤ i → hp'[i]? = hp[i]? := by
  obtain ⟨s', hp0, hp', v1, v2, v3, v4, v5, v6, _⟩ := writeVersion_ok e s o e.P (by omega) (getElem?_some_lt h1) hf
  rw [h1] at v2; cases v2
  have hko : ¬ (o.kind = .data80 ∨ o.kind = .free80) := by rw [hk]; decide
  rw [if_neg hko] at v6
  have hoth : ∀ q, q ≠ o.block → s'.pages[q]? = s.pages[q]? := by
    intro q hq
    rw [v4, get_set_ne _ _ _ _ (Ne.symm hq)]
  have hl := hf hp (List.mem_of_getElem? h1)
  refine ⟨s', hp', v1, ⟨v5, ?_, by rw [v4]; simp, ?_⟩, by rw [v4]; simp, hoth, ?_, head_congr hh (fun i hi => v6 i (by omega)),
    fun i hi => v6 i (by omega)⟩
  · rw [v4]; exact set_lengths _ _ _ _ hf (by rw [v3]; exact hl)
  · intro q _ _ hq
    exact hoth q (fun x => hq (by rw [x]; exact List.mem_singleton.mpr rfl))
  · rw [v4]; exact get_set_eq _ _ _ (getElem?_some_lt h1)

theorem refreshRoot_838 (e : Env) (s : St) (o : Obj) (root : List Nat) (size : Nat) (hp : Bytes)
    (h1 : s.pages[o.block]? = some hp) (hn : root.length ≠ 0) (hread : 24 + 16 * root.length ≤ hp.length) :
    ∃ ws : List Nat, ws.length = root.length * 4 ∧ (∀ k, k < root.length * 4 → ws[k]? = Spec.word hp (24 + 4 * k)) ∧
      refreshRoot e s o root.length size =
        if root.length * 4 - size > e.slack then .ub else .ok (ws.take size ++ List.replicate (size - root.length * 4) 0) := by
  obtain ⟨ws, w1, w2, w3⟩ := copyRoot_exists hp 24 (root.length * 4) (by omega)
  refine ⟨ws, w2, w3, ?_⟩
  unfold refreshRoot
  rw [if_neg hn]
  simp only [peekMany, h1, w1, Outcome.ok_bind]

/-- A change of the header page that keeps its root list keeps the file. -/
theorem file838one_header {pages pages' : List Bytes} {h : Nat} {datas : List Nat} (hf : Spec.File838One pages h datas)
    {hp hp' : Bytes} (h1 : pages[h]? = some hp) (h2 : pages'[h]? = some hp') (h3 : ∀ i, 24 ≤ i → hp'[i]? = hp[i]?)
    (hlen : pages.length ≤ pages'.length) : Spec.File838One pages' h datas := by
  obtain ⟨hp0, r1, r2⟩ := hf.root
  rw [h1] at r1; cases r1
  refine ⟨⟨hp', h2, ?_⟩, fun q hq => Nat.lt_of_lt_of_le (hf.present q hq) hlen, hf.distinct⟩
  intro k hk
  rw [← r2 k hk]
  exact word_of_get _ _ _ (fun i hi _ => h3 i (by omega))

theorem file838two_header {pages pages' : List Bytes} {P h : Nat} {tabs datas : List Nat}
    (hf : Spec.File838Two pages P h tabs datas)
    {hp hp' : Bytes} (h1 : pages[h]? = some hp) (h2 : pages'[h]? = some hp') (h3 : ∀ i, 24 ≤ i → hp'[i]? = hp[i]?)
    (h4 : ∀ q, q ≠ h → pages'[q]? = pages[q]?) (hlen : pages.length ≤ pages'.length) :
    Spec.File838Two pages' P h tabs datas := by
  obtain ⟨hp0, r1, r2⟩ := hf.root
  rw [h1] at r1; cases r1
  refine ⟨⟨hp', h2, ?_⟩, ?_, fun q hq => Nat.lt_of_lt_of_le (hf.present q hq) hlen, hf.distinct⟩
  · intro k hk
    rw [← r2 k hk]
    exact word_of_get _ _ _ (fun i hi _ => h3 i (by omega))
  · intro k hk
    obtain ⟨t, tp, a, b, c⟩ := hf.entry k hk
    have hnd := hf.distinct
    rw [List.nodup_cons] at hnd
    exact ⟨t, tp, a, by rw [h4 t (fun x => hnd.1 (by rw [← x]; simp [List.mem_of_getElem? a]))]; exact b, c⟩

/-! ## Within one level -/

/-- Everything `set_len` does before the root list is refreshed. -/
theorem core_838_one (e : Env) (hP : 24 ≤ e.P) (fuel : Nat) (s : St) (o : Obj) (D : List Nat) (newLen : Nat)
    (ha : Appending e s) (h0 : o.block ≠ 0) (ho : Loaded838 s o D) (hfat : o.fatlevel = 0)
    (hf : Spec.File838One s.pages o.block D) (hD : D.length = (o.len + e.P - 1) / e.P) (hpos : 0 < o.len) (hgt : o.len < newLen)
    (hmax : newLen ≤ maxLen838 e.P) (hone : (newLen + e.P - 1) / e.P ≤ e.P / 4 - 6)
    (hsm : s.pages.length + (newLen + e.P - 1) / e.P ≤ 2 ^ 32) :
    ∃ s1 s2 hp2, 0 < D.length ∧ D.length ≤ (newLen + e.P - 1) / e.P ∧ Ext e s s2 [o.block] ∧
      s2.pages[o.block]? = some hp2 ∧ Spec.Head838 hp2 o.fatlevel newLen ∧
      Spec.File838One s2.pages o.block (D ++ List.range' s.pages.length ((newLen + e.P - 1) / e.P - D.length)) ∧
      touch e s o.block true = .ok s ∧ poke s o.block 16 (le32 newLen ++ le32 (newLen / 2 ^ 32)) = .ok s1 ∧
      resize838 e fuel s1 o ((newLen + e.P - 1) / e.P) D.length 0 = .ok (some (s2, D.length, 0)) := by
  have hml : maxLen838 e.P < 2 ^ 32 := Nat.mod_lt _ (by decide)
  obtain ⟨s1, hp, hp1, a1, a2, a3, a4, a5, a6, a7, a8, a9⟩ := start_838 e s o D newLen hP ha.full ho (by omega)
  have hDpos : 0 < D.length := by rw [hD]; exact Nat.div_pos (by omega) (by omega)
  have hf1 := file838one_header hf a6 a7 a9 (by omega)
  have hle : D.length ≤ (newLen + e.P - 1) / e.P := by rw [hD]; exact Nat.div_le_div_right (by omega)
  generalize hnd : (newLen + e.P - 1) / e.P = ndb at *
  obtain ⟨s2, b1, b2, b3, b4, hp1', hp2, b5, b6, b7⟩ := grow838one_ok e o.block (by omega) h0 (ndb - D.length) s1 D
    (a3.appending ha) hf1 (by omega) (by omega)
  rw [a7] at b5; cases b5
  refine ⟨s1, s2, hp2, hDpos, hle, Ext.trans a3 b2 (fun q hq => .inl hq), b6, head_congr a8 (fun i hi => b7 i (by omega)),
    by rw [a4] at b4; exact b4, a1, a2, ?_⟩
  unfold resize838
  simp only
  by_cases hlt : D.length < ndb
  · rw [if_pos hlt, if_neg (by simp), if_neg (by rw [ho.numblocks]; omega)]
    obtain ⟨hp0, r1, r2⟩ := hf1.root
    have hpk : peek s1 o.block (24 + 4 * (o.numblocks - 1)) = .ok D[D.length - 1] := by
      rw [ho.numblocks]
      exact peek_of_word r1 (r2 _ (by omega))
    have htl := hf1.present _ (List.getElem_mem (show D.length - 1 < D.length by omega))
    simp only [hpk, Outcome.ok_bind, touch_read e s1 _ htl]
    rw [if_neg (by omega), b1, ho.numblocks]
    rfl
  · have hz : ndb - D.length = 0 := by omega
    rw [hz] at b1
    simp only [grow838one] at b1
    cases b1
    rw [if_neg (by omega), if_neg (by omega), ho.numblocks, hfat]

/-- **C25, growing within one level, format 8.3.8.** The call succeeds if what is read and
written past the ends of the two arrays does no harm. Then the file *in the database* has grown
as it should: opening it again finds the new length and the data pages it had followed by
appended ones, and no page but the header page and page 0 (the number of pages) has changed. The object in
memory is not usable (`numblocks` is the old one; see `grow_838_overwrites_page_zero`). -/
theorem set_len_grow_838_one_partial (e : Env) (hP : 24 ≤ e.P) (fuel : Nat) (s : St) (o : Obj) (D : List Nat) (newLen : Nat)
    (ha : Appending e s) (h0 : o.block ≠ 0) (hne : o.block ≠ 1) (ho : Loaded838 s o D) (hfat : o.fatlevel = 0)
    (hf : Spec.File838One s.pages o.block D) (hD : D.length = (o.len + e.P - 1) / e.P) (hpos : 0 < o.len) (hgt : o.len < newLen)
    (hmax : newLen ≤ maxLen838 e.P) (hone : (newLen + e.P - 1) / e.P ≤ e.P / 4 - 6) (hread : 24 + 16 * D.length ≤ e.P)
    (hslack : 4 * D.length - (newLen + e.P - 1) / e.P ≤ e.slack) (hsm : s.pages.length + (newLen + e.P - 1) / e.P ≤ 2 ^ 32) :
    ∃ s' o' D', setLen838 e fuel s o newLen = .ok (some (s', o')) ∧
      D' = List.range' s.pages.length ((newLen + e.P - 1) / e.P - D.length) ∧
      (∃ o2, init s'.pages e.P true o.block = .ok o2 ∧ o2.len = newLen ∧ o2.fatlevel = 0 ∧ o2.blocks = D ++ D') ∧
      Spec.File838One s'.pages o.block (D ++ D') ∧ (D ++ D').length = (newLen + e.P - 1) / e.P ∧ Appending e s' ∧
      (∀ q, q < s.pages.length → q ≠ 0 → q ≠ o.block → s'.pages[q]? = s.pages[q]?) ∧
      o'.len = newLen ∧ o'.numblocks = D.length := by
  obtain ⟨s1, s2, hp2, hDpos, hle, b2, b6, hh2, b4, a1, a2, hres⟩ :=
    core_838_one e hP fuel s o D newLen ha h0 ho hfat hf hD hpos hgt hmax hone hsm
  generalize hnd : (newLen + e.P - 1) / e.P = ndb at *
  have hl2 := b2.full hp2 (List.mem_of_getElem? b6)
  obtain ⟨ws, w1, w2, w3⟩ := refreshRoot_838 e s2 o D ndb hp2 b6 (by omega) (by omega)
  rw [if_neg (by omega)] at w3
  obtain ⟨s3, hp3, c1, c2, c3, c4, c5, c6, c7⟩ := finish_838 e s2
    { o with len := newLen, numblocks := D.length, fatlevel := 0, blocks := ws.take ndb ++ List.replicate (ndb - D.length * 4) 0, data := none }
    hP b2.full ho.kind hp2 b6 o.fatlevel newLen hh2
  have hf3 := file838one_header b4 b6 c5 c7 (by omega)
  have hlen3 : (D ++ List.range' s.pages.length (ndb - D.length)).length = ndb := by simp; omega
  have hE : Ext e s s3 [o.block] := Ext.trans b2 c2 (fun q hq => .inl hq)
  refine ⟨s3, { o with len := newLen, numblocks := D.length, fatlevel := 0, blocks := ws.take ndb ++ List.replicate (ndb - D.length * 4) 0, data := none, recorded := true },
    _, ?_, rfl, ?_, hf3, hlen3, hE.appending ha, fun q x y z => hE.frame q x y (by simpa using z), rfl, rfl⟩
  · unfold setLen838
    rw [if_neg (by omega), if_neg (by omega)]
    simp only [a1, Outcome.ok_bind, a2, hnd, if_neg (show ¬ ndb > e.P / 4 - 6 by omega)]
    rw [← hD, hres]
    simp only [Outcome.ok_bind, w3, c1]
  · obtain ⟨hp0, r1, r2⟩ := hf3.root
    rw [c5] at r1; cases r1
    have hl3 := c2.full hp3 (List.mem_of_getElem? c5)
    obtain ⟨v1, v2, hi⟩ := init_838_of s3.pages e.P o.block o.fatlevel newLen hp3 _ hne c5 c6 (by omega)
      (fun _ => by
        have h1 := Nat.div_add_mod (newLen + e.P - 1) e.P
        have h2 := Nat.mod_lt (newLen + e.P - 1) (show 0 < e.P by omega)
        rw [hnd] at h1
        have h3 : e.P * ndb ≤ e.P * (e.P / 4 - 6) := Nat.mul_le_mul_left _ hone
        rw [Nat.mul_comm (e.P / 4 - 6)]
        omega) r2
      (by rw [if_pos hfat, roundUp_ceil _ _ (by omega), hnd]; exact hlen3)
    exact ⟨_, hi, rfl, hfat, rfl⟩

/-- **Finding (C25).** Read strictly, growing a file of format 8.3.8 within one level to less
than four times its number of pages writes past the end of the vector of root entries. -/
theorem set_len_838_one_overflows (e : Env) (hP : 24 ≤ e.P) (fuel : Nat) (s : St) (o : Obj) (D : List Nat) (newLen : Nat)
    (ha : Appending e s) (h0 : o.block ≠ 0) (ho : Loaded838 s o D) (hfat : o.fatlevel = 0)
    (hf : Spec.File838One s.pages o.block D) (hD : D.length = (o.len + e.P - 1) / e.P) (hpos : 0 < o.len) (hgt : o.len < newLen)
    (hmax : newLen ≤ maxLen838 e.P) (hone : (newLen + e.P - 1) / e.P ≤ e.P / 4 - 6) (hread : 24 + 16 * D.length ≤ e.P)
    (hslack : e.slack = 0) (hless : (newLen + e.P - 1) / e.P < 4 * D.length) (hsm : s.pages.length + (newLen + e.P - 1) / e.P ≤ 2 ^ 32) :
    setLen838 e fuel s o newLen = .ub := by
  obtain ⟨s1, s2, hp2, hDpos, hle, b2, b6, hh2, b4, a1, a2, hres⟩ :=
    core_838_one e hP fuel s o D newLen ha h0 ho hfat hf hD hpos hgt hmax hone hsm
  generalize hnd : (newLen + e.P - 1) / e.P = ndb at *
  have hl2 := b2.full hp2 (List.mem_of_getElem? b6)
  obtain ⟨ws, w1, w2, w3⟩ := refreshRoot_838 e s2 o D ndb hp2 b6 (by omega) (by omega)
  rw [if_pos (by omega)] at w3
  unfold setLen838
  rw [if_neg (by omega), if_neg (by omega)]
  simp only [a1, Outcome.ok_bind, a2, hnd, if_neg (show ¬ ndb > e.P / 4 - 6 by omega)]
  rw [← hD, hres]
  simp only [Outcome.ok_bind, w3]
  rfl

/-! ## With two levels -/

/-- An object with two levels, loaded and whole. -/
structure Opened838Two (e : Env) (s : St) (o : Obj) (tabs datas : List Nat) : Prop where
  loaded : Loaded838 s o tabs
  fat : o.fatlevel ≠ 0
  nDatas : datas.length = (o.len + e.P - 1) / e.P
  nTabs : tabs.length = (datas.length + e.P / 4 - 1) / (e.P / 4)
  file : Spec.File838Two s.pages e.P o.block tabs datas
  zero : 0 ∉ o.block :: (tabs ++ datas)

/-- Such an object is found again by opening the file. -/
theorem opened_838_reopens (e : Env) (hP : 24 ≤ e.P) (s : St) (o : Obj) (tabs datas : List Nat) (h : Opened838Two e s o tabs datas)
    (hne : o.block ≠ 1) (hf : ∀ p ∈ s.pages, p.length = e.P) :
    ∃ o2, init s.pages e.P true o.block = .ok o2 ∧ o2.len = o.len ∧ o2.fatlevel = o.fatlevel ∧ o2.blocks = o.blocks ∧
      o2.numblocks = o.numblocks ∧ o2.block = o.block ∧ o2.kind = o.kind := by
  obtain ⟨hp, h1, h2⟩ := h.loaded.header
  obtain ⟨hp0, r1, r2⟩ := h.file.root
  rw [h1] at r1; cases r1
  have hl := hf hp (List.mem_of_getElem? h1)
  obtain ⟨v1, v2, hi⟩ := init_838_of s.pages e.P o.block o.fatlevel o.len hp tabs hne h1 h2 (by omega) (fun x => absurd x h.fat) r2
    (by rw [if_neg h.fat, roundUp_ceil2 _ _ _ (by omega) (by omega), h.nTabs, h.nDatas])
  exact ⟨_, hi, rfl, rfl, h.loaded.blocks.symm, h.loaded.numblocks.symm, rfl, h.loaded.kind.symm⟩

/-- And opening a whole file gives such an object. -/
theorem init_opened_838 (e : Env) (hP : 24 ≤ e.P) (s : St) (h : Nat) (o : Obj) (tabs datas : List Nat) (hb : h ≠ 1)
    (ho : init s.pages e.P true h = .ok o) (hfat : o.fatlevel ≠ 0) (hf : Spec.File838Two s.pages e.P h tabs datas)
    (hd : datas.length = (o.len + e.P - 1) / e.P) (ht : tabs.length = (datas.length + e.P / 4 - 1) / (e.P / 4)) (hz : 0 ∉ h :: (tabs ++ datas)) :
    Opened838Two e s o tabs datas := by
  obtain ⟨hp, i1, i2, i3, i4, i5, i6, i7, i8, i9⟩ := init_838 s.pages e.P h o hb ho
  obtain ⟨hp0, r1, r2⟩ := hf.root
  rw [i1] at r1; cases r1
  have hn : o.numblocks = tabs.length := by
    rw [i6, if_neg hfat, roundUp_ceil2 _ _ _ (by omega) (by omega), ht, hd]
  have hsig : hp.take 2 = [0x1c, 0xfd] := by
    unfold init at ho
    rw [(getPage_ok _ _ _).mpr i1] at ho
    simp only [Outcome.ok_bind, Bool.true_eq_false, if_false] at ho
    rw [if_neg hb] at ho
    split at ho
    · cases ho
    · rename_i hh
      exact Classical.not_not.mp hh
  refine ⟨⟨i2, ?_, hn, hp, by rw [i9]; exact i1, hsig, ?_, i4⟩, hfat, hd, ht, by rw [i9]; exact hf, by rw [i9]; exact hz⟩
  · apply List.ext_getElem (by omega)
    intro k h1 h2
    have := i8 k (by omega)
    rw [List.getElem?_eq_getElem h1, r2 k h2] at this
    exact Option.some.inj this
  · obtain ⟨w, f1, f2⟩ := i5
    exact ⟨w, f1, f2.symm⟩

/-- What growing guarantees: the call succeeds, the object stays whole with the new length, its
data pages are still its first data pages, the pages it got are new, and only page 0 (the
number of pages), the header page and the tables have changed among the pages there were. -/
structure Spec.Grew838 (e : Env) (s : St) (o : Obj) (tabs datas : List Nat) (newLen : Nat) (s' : St) (o' : Obj)
    (tabs' datas' : List Nat) : Prop where
  opened : Opened838Two e s' o' (tabs ++ tabs') (datas ++ datas')
  len : o'.len = newLen
  block : o'.block = o.block
  appending : Appending e s'
  fresh : ∀ q ∈ tabs' ++ datas', s.pages.length ≤ q
  count : s'.pages.length = s.pages.length + tabs'.length + datas'.length
  frame : ∀ q, q < s.pages.length → q ≠ 0 → q ≠ o.block → q ∉ tabs → s'.pages[q]? = s.pages[q]?

/-- The end of growing with two levels. -/
theorem end_838_two (e : Env) (hP : 24 ≤ e.P) (s s2 : St) (o : Obj) (tabs tabs' datas datas' : List Nat) (newLen fat : Nat) (hp2 : Bytes)
    (hk : o.kind = .data838) (hfat : fat ≠ 0) (ha : Appending e s) (hE : Ext e s s2 (o.block :: tabs))
    (hf : Spec.File838Two s2.pages e.P o.block (tabs ++ tabs') (datas ++ datas'))
    (hd : (datas ++ datas').length = (newLen + e.P - 1) / e.P) (hpos : 0 < (datas ++ datas').length)
    (ht : (tabs ++ tabs').length = ((datas ++ datas').length + e.P / 4 - 1) / (e.P / 4)) (hz : 0 ∉ o.block :: ((tabs ++ tabs') ++ (datas ++ datas')))
    (hfresh : ∀ q ∈ tabs' ++ datas', s.pages.length ≤ q)
    (hcount : s2.pages.length = s.pages.length + tabs'.length + datas'.length)
    (h1 : s2.pages[o.block]? = some hp2) (hh : Spec.Head838 hp2 fat newLen)
    (hread : 24 + 16 * (tabs ++ tabs').length ≤ e.P) (hslack : 3 * (tabs ++ tabs').length ≤ e.slack) :
    refreshRoot e s2 o (tabs ++ tabs').length (((newLen + e.P - 1) / e.P + e.P / 4 - 1) / (e.P / 4)) = .ok (tabs ++ tabs') ∧
    ∃ s3 o3, writeVersion e s2 { o with len := newLen, numblocks := (tabs ++ tabs').length, fatlevel := fat, blocks := tabs ++ tabs', data := none } =
        .ok (s3, o3) ∧ Spec.Grew838 e s o tabs datas newLen s3 o3 tabs' datas' := by
  have hl2 := hE.full hp2 (List.mem_of_getElem? h1)
  have htpos : 0 < (tabs ++ tabs').length := by
    rw [ht]; exact Nat.div_pos (by omega) (by omega)
  obtain ⟨ws, w1, w2, w3⟩ := refreshRoot_838 e s2 o (tabs ++ tabs') (tabs ++ tabs').length hp2 h1 (by omega) (by omega)
  obtain ⟨hp0, r1, r2⟩ := hf.root
  rw [h1] at r1; cases r1
  rw [if_neg (by omega)] at w3
  have hws : ws.take (tabs ++ tabs').length ++ List.replicate ((tabs ++ tabs').length - (tabs ++ tabs').length * 4) 0 = tabs ++ tabs' := by
    rw [show (tabs ++ tabs').length - (tabs ++ tabs').length * 4 = 0 by omega, List.replicate_zero, List.append_nil]
    apply List.ext_getElem?
    intro k
    rcases Nat.lt_or_ge k (tabs ++ tabs').length with hk | hk
    · rw [List.getElem?_take_of_lt hk, w2 k (by omega), r2 k hk, List.getElem?_eq_getElem hk]
    · rw [List.getElem?_eq_none (by rw [List.length_take]; omega), List.getElem?_eq_none hk]
  rw [hws] at w3
  refine ⟨by rw [← hd, ← ht]; exact w3, ?_⟩
  obtain ⟨s3, hp3, c1, c2, c3, c4, c5, c6, c7⟩ := finish_838 e s2
    { o with len := newLen, numblocks := (tabs ++ tabs').length, fatlevel := fat, blocks := tabs ++ tabs', data := none }
    hP hE.full hk hp2 h1 fat newLen hh
  have hE3 : Ext e s s3 (o.block :: tabs) := Ext.trans hE c2 (fun q hq => .inl (by rw [List.mem_singleton.mp hq]; simp))
  refine ⟨s3, _, c1, ?_, rfl, rfl, hE3.appending ha, hfresh, by rw [c3]; exact hcount, fun q x y z w => hE3.frame q x y (by simp [z, w])⟩
  exact ⟨⟨hk, rfl, rfl, hp3, c5, c6⟩, hfat, hd, ht, file838two_header hf h1 c5 c7 c4 (by omega), hz⟩

theorem zero_fresh {n h : Nat} {tabs tabs' datas datas' : List Nat} (hn : 0 < n) (hz : 0 ∉ h :: (tabs ++ datas))
    (hf : ∀ q ∈ tabs' ++ datas', n ≤ q) : 0 ∉ h :: ((tabs ++ tabs') ++ (datas ++ datas')) := by
  intro hh
  have h1 : 0 ∉ tabs' ++ datas' := fun x => by have := hf 0 x; omega
  simp only [List.mem_cons, List.mem_append, not_or] at hz h1 hh
  rcases hh with hh | (hh | hh) | hh | hh
  · exact hz.1 hh
  · exact hz.2.1 hh
  · exact h1.1 hh
  · exact hz.2.2 hh
  · exact h1.2 hh

/-- **C25, growing with two levels, format 8.3.8.** -/
theorem set_len_grow_838_two_partial (e : Env) (hP : 24 ≤ e.P) (fuel : Nat) (s : St) (o : Obj) (tabs datas : List Nat) (newLen : Nat)
    (ha : Appending e s) (ho : Opened838Two e s o tabs datas) (hpos : 0 < o.len) (hgt : o.len < newLen)
    (hmax : newLen ≤ maxLen838 e.P) (htwo : e.P / 4 - 6 < (newLen + e.P - 1) / e.P)
    (hread : 24 + 16 * (((newLen + e.P - 1) / e.P + e.P / 4 - 1) / (e.P / 4)) ≤ e.P)
    (hslack : 3 * (((newLen + e.P - 1) / e.P + e.P / 4 - 1) / (e.P / 4)) ≤ e.slack)
    (hsm : s.pages.length + 2 * ((newLen + e.P - 1) / e.P) ≤ 2 ^ 32) :
    ∃ s' o' tabs' datas', setLen838 e fuel s o newLen = .ok (some (s', o')) ∧
      Spec.Grew838 e s o tabs datas newLen s' o' tabs' datas' := by
  have hml : maxLen838 e.P < 2 ^ 32 := Nat.mod_lt _ (by decide)
  obtain ⟨s1, hp, hp1, a1, a2, a3, a4, a5, a6, a7, a8, a9⟩ := start_838 e s o tabs newLen hP ha.full ho.loaded (by omega)
  have hDpos : 0 < datas.length := by rw [ho.nDatas]; exact Nat.div_pos (by omega) (by omega)
  have hf1 := file838two_header ho.file a6 a7 a9 a5 (by omega)
  have hle : datas.length ≤ (newLen + e.P - 1) / e.P := by rw [ho.nDatas]; exact Nat.div_le_div_right (by omega)
  have hcur := ho.nDatas
  have hTpos : 0 < tabs.length := by rw [ho.nTabs]; exact Nat.div_pos (by omega) (by omega)
  generalize hnd : (newLen + e.P - 1) / e.P = ndb at *
  have hlast : tabs[tabs.length - 1]? = some tabs[tabs.length - 1] := List.getElem?_eq_getElem (by omega)
  have hper : 0 < e.P / 4 := by omega
  obtain ⟨s2, tabs', D', b1, b2, b3, b4, b5, b6, bc, hp1', hp2, b7, b8, b9⟩ := grow838two_ok e o.block (by omega) (ndb - datas.length) s1 tabs datas
    tabs[tabs.length - 1] (a3.appending ha) hf1 (fun x => ho.zero (by
      rw [← List.cons_append]; exact List.mem_append_left _ x)) ho.nTabs
    (by
      intro hz
      have h1 := ho.nTabs
      have hm := Nat.div_add_mod datas.length (e.P / 4)
      have hml := Nat.mod_lt datas.length hper
      have h2 : (datas.length + e.P / 4 - 1) / (e.P / 4) = datas.length / (e.P / 4) + 1 := by
        have : datas.length + e.P / 4 - 1 = (datas.length % (e.P / 4) - 1) + e.P / 4 * (datas.length / (e.P / 4) + 1) := by
          rw [Nat.mul_add, Nat.mul_one]; omega
        rw [this, Nat.add_mul_div_left _ _ hper, Nat.div_eq_of_lt (by omega)]; omega
      rw [show datas.length / (e.P / 4) = tabs.length - 1 by omega]
      exact hlast)
    (by rw [show datas.length + (ndb - datas.length) = ndb by omega]; omega) (by omega)
  rw [a7] at b7; cases b7
  have hD : (datas ++ D').length = ndb := by rw [List.length_append, b4]; omega
  have hres : resize838 e fuel s1 o ndb datas.length 1 = .ok (some (s2, (tabs ++ tabs').length, o.fatlevel)) := by
    unfold resize838
    simp only
    by_cases hlt : datas.length < ndb
    · have hno : ¬ (o.fatlevel = 0 ∧ 1 ≠ 0) := fun x => ho.fat x.1
      rw [if_pos hlt, if_neg hno, if_neg (by rw [ho.loaded.numblocks]; omega)]
      obtain ⟨hp0, r1, r2⟩ := hf1.root
      have hpk : peek s1 o.block (24 + 4 * (o.numblocks - 1)) = .ok tabs[tabs.length - 1] := by
        rw [ho.loaded.numblocks]
        exact peek_of_word r1 (r2 _ (by omega))
      have htl := hf1.present tabs[tabs.length - 1] (by simp)
      simp only [hpk, Outcome.ok_bind, touch_read e s1 _ htl]
      rw [if_pos ho.fat, ho.loaded.numblocks, b1]
      rfl
    · have hz : ndb - datas.length = 0 := by omega
      rw [hz] at b1
      simp only [grow838two, Outcome.ok.injEq, Prod.mk.injEq] at b1
      rw [if_neg (by omega), if_neg (by omega), ho.loaded.numblocks, ← b1.2, b1.1]
  have hn0 : 0 < s.pages.length := by have := getElem?_some_lt a6; omega
  obtain ⟨d1, s3, o3, d2, d3⟩ := end_838_two e hP s s2 o tabs tabs' datas D' newLen o.fatlevel hp2 ho.loaded.kind ho.fat ha
    (Ext.trans ⟨a3.fr, a3.full, a3.len, fun q x y z => a3.frame q x y (by simp only [List.mem_cons, not_or] at z; simp [z.1])⟩ b2 (fun q hq => .inl hq))
    b3 (by rw [hnd]; exact hD) (by omega) b5
    (zero_fresh hn0 ho.zero (fun q hq => by have := b6 q hq; omega)) (fun q hq => by have := b6 q hq; omega) (by omega) b8
    (head_congr a8 (fun i hi => b9 i (by omega)))
    (by rw [b5, hD]; exact hread) (by rw [b5, hD]; exact hslack)
  refine ⟨s3, o3, tabs', D', ?_, d3⟩
  unfold setLen838
  rw [if_neg (by omega), if_neg (by omega)]
  simp only [a1, Outcome.ok_bind, a2, hnd, if_pos (show ndb > e.P / 4 - 6 by omega)]
  rw [← hcur, hres]
  simp only [Outcome.ok_bind]
  rw [hnd] at d1
  rw [d1]
  simp only [Outcome.ok_bind, d2]

/-! ## From one level to two -/

theorem flatMap_le32_length (ws : List Nat) : (ws.flatMap le32).length = 4 * ws.length := by
  induction ws with
  | nil => rfl
  | cons w ws ih => simp only [List.flatMap_cons, List.length_append, ih, length_le32, List.length_cons]; omega

theorem word_append_skip (a b : Bytes) (k : Nat) : Spec.word (a ++ b) (a.length + k) = Spec.word b k := by
  unfold Spec.word
  rw [List.getElem?_append_right (by omega), List.getElem?_append_right (by omega), List.getElem?_append_right (by omega),
    List.getElem?_append_right (by omega), show a.length + k - a.length = k by omega,
    show a.length + k + 1 - a.length = k + 1 by omega, show a.length + k + 2 - a.length = k + 2 by omega,
    show a.length + k + 3 - a.length = k + 3 by omega]

theorem word_flatMap (ws : List Nat) (hw : ∀ w ∈ ws, w < 2 ^ 32) : ∀ k (hk : k < ws.length),
    Spec.word (ws.flatMap le32) (4 * k) = some ws[k] := by
  induction ws with
  | nil => intro k hk; simp at hk
  | cons w ws ih =>
    intro k hk
    rw [List.flatMap_cons]
    cases k with
    | zero => exact word_le32_append w _ (hw w (by simp))
    | succ k =>
      have := word_append_skip (le32 w) (ws.flatMap le32) (4 * k)
      rw [length_le32] at this
      rw [show 4 * (k + 1) = 4 + 4 * k by omega, this, ih (fun x hx => hw x (by simp [hx])) k (by simpa using hk)]
      simp

/-- **C25, growing from one level to two, format 8.3.8.** The pages listed by the header move to
the first table. -/
theorem set_len_grow_838_cross_partial (e : Env) (hP : 28 ≤ e.P) (fuel : Nat) (s : St) (o : Obj) (D : List Nat) (newLen : Nat)
    (ha : Appending e s) (h0 : 0 ∉ o.block :: D) (ho : Loaded838 s o D) (hfat : o.fatlevel = 0)
    (hf : Spec.File838One s.pages o.block D) (hD : D.length = (o.len + e.P - 1) / e.P) (hone : D.length ≤ e.P / 4 - 6)
    (hpos : 0 < o.len) (hgt : o.len < newLen) (hmax : newLen ≤ maxLen838 e.P) (htwo : e.P / 4 - 6 < (newLen + e.P - 1) / e.P)
    (hread : 24 + 16 * (((newLen + e.P - 1) / e.P + e.P / 4 - 1) / (e.P / 4)) ≤ e.P)
    (hslack : 3 * (((newLen + e.P - 1) / e.P + e.P / 4 - 1) / (e.P / 4)) ≤ e.slack)
    (hsm : s.pages.length + 2 * ((newLen + e.P - 1) / e.P) < 2 ^ 32) :
    ∃ s' o' tabs' datas', setLen838 e fuel s o newLen = .ok (some (s', o')) ∧
      Spec.Grew838 e s o [] D newLen s' o' tabs' datas' := by
  have hml : maxLen838 e.P < 2 ^ 32 := Nat.mod_lt _ (by decide)
  obtain ⟨s1, hp, hp1, a1, a2, a3, a4, a5, a6, a7, a8, a9⟩ := start_838 e s o D newLen (by omega) ha.full ho (by omega)
  have hDpos : 0 < D.length := by rw [hD]; exact Nat.div_pos (by omega) (by omega)
  have hf1 := file838one_header hf a6 a7 a9 (by omega)
  generalize hnd : (newLen + e.P - 1) / e.P = ndb at *
  have hper : 0 < e.P / 4 := by omega
  have hl1 := a3.full hp1 (List.mem_of_getElem? a7)
  have hbl := getElem?_some_lt a7
  have hn0 : 0 < s.pages.length := by omega
  have hb0 : o.block ≠ 0 := fun x => h0 (by rw [x]; simp)
  -- the first table
  obtain ⟨s2, b1, b2, b3, b4⟩ := fresh838 e s1 (a3.appending ha) (by omega)
  have hh2 : s2.pages[o.block]? = some hp1 := by rw [b2.frame _ hbl hb0 (by simp)]; exact a7
  obtain ⟨hp0, r1, r2⟩ := hf1.root
  rw [a7] at r1; cases r1
  have hDb : ∀ w ∈ D, w < 2 ^ 32 := fun w hw => by have := hf1.present w hw; omega
  have hpm : peekMany s2 o.block 24 D.length = .ok D := by
    simp only [peekMany, hh2]
    refine copyRoot_of_words hp1 _ 24 D rfl ?_
    intro k hk
    rw [r2 k hk, List.getElem?_eq_getElem hk]
  have hwl := flatMap_le32_length D
  obtain ⟨s3, c1, c2, c3, c4, c5⟩ := poke838 e s2 b2.full s1.pages.length 0 (D.flatMap le32) _ b4 (by omega)
  have hNb : s1.pages.length ≠ o.block := by omega
  have hh3 : s3.pages[o.block]? = some hp1 := by rw [c5 _ (Ne.symm hNb)]; exact hh2
  obtain ⟨s4, d1, d2, d3, d4, d5⟩ := poke838 e s3 c2.full o.block 2 [UInt8.ofNat 1, 0] hp1 hh3 (by simp only [List.length_cons, List.length_nil]; omega)
  obtain ⟨s5, f1, f2, f3, f4, f5⟩ := poke838 e s4 d2.full o.block 24 (le32 s1.pages.length) _ d4 (by rw [length_le32]; omega)
  have hb2 : ([UInt8.ofNat 1, 0] : Bytes).length = 2 := rfl
  have hl4 : (splice hp1 2 [UInt8.ofNat 1, 0]).length = e.P := by rw [length_splice _ _ _ (by rw [hb2]; omega)]; exact hl1
  have hh5 : Spec.Head838 (splice (splice hp1 2 [UInt8.ofNat 1, 0]) 24 (le32 s1.pages.length)) 1 newLen :=
    head_congr (head_fat a8 1 (by decide) (by omega)) (fun i hi => splice_get_out _ _ _ _ (by rw [length_le32]; omega) (by omega))
  have hlen5 : s5.pages.length = s.pages.length + 1 := by omega
  have hN5 : s5.pages[s.pages.length]? = some (splice (List.replicate e.P 0) 0 (D.flatMap le32)) := by
    rw [f5 _ (by omega), d5 _ (by omega), ← a4]
    exact c4
  have hz1 : 0 ∉ o.block :: [s.pages.length] := by
    intro hh
    simp only [List.mem_cons, List.not_mem_nil, or_false] at hh
    omega
  have hf5 : Spec.File838Two s5.pages e.P o.block [s.pages.length] D := by
    refine ⟨⟨_, f4, ?_⟩, ?_, ?_, ?_⟩
    · intro k hk
      have : k = 0 := by simp at hk; exact hk
      subst this
      rw [Nat.mul_zero, Nat.add_zero, word_splice_in _ _ _ (by omega) (by omega), a4]
      rfl
    · intro k hk
      refine ⟨s.pages.length, _, ?_, hN5, ?_⟩
      · rw [Nat.div_eq_of_lt (by omega)]; rfl
      · rw [Nat.mod_eq_of_lt (by omega)]
        have := word_splice_sub (List.replicate e.P 0) 0 (D.flatMap le32) (4 * k) (by rw [List.length_replicate]; omega) (by omega)
        rw [Nat.zero_add] at this
        rw [this]
        exact word_flatMap D hDb k hk
    · intro q hq
      rw [hlen5]
      simp only [List.cons_append, List.nil_append, List.mem_cons] at hq
      rcases hq with hq | hq
      · omega
      · have := hf1.present q hq; omega
    · have hd := hf.distinct
      rw [List.nodup_cons] at hd
      simp only [List.cons_append, List.nil_append, List.nodup_cons, List.mem_cons, not_or]
      refine ⟨⟨by omega, hd.1⟩, ?_, hd.2⟩
      intro hh
      have := hf.present _ hh
      omega
  have hE5 : Ext e s s5 [o.block] := by
    have g1 : Ext e s s2 [o.block] := Ext.trans a3 b2 (by simp)
    have g2 : Ext e s s3 [o.block] := Ext.trans g1 c2 (fun q hq => .inr (by rw [List.mem_singleton.mp hq]; omega))
    exact Ext.trans (Ext.trans g2 d2 (fun q hq => .inl hq)) f2 (fun q hq => .inl hq)
  obtain ⟨s6, tabs', D', g1, g2, g3, g4, g5, g6, gc, hp5, hp6, g7, g8, g9⟩ := grow838two_ok e o.block (by omega) (ndb - D.length) s5
    [s.pages.length] D s.pages.length (hE5.appending ha) hf5 hz1
    (by
      have : (D.length + e.P / 4 - 1) / (e.P / 4) = 1 := by
        rw [show D.length + e.P / 4 - 1 = (D.length - 1) + e.P / 4 by omega, Nat.add_div_right _ hper, Nat.div_eq_of_lt (by omega)]
      rw [this]; rfl)
    (by intro _; rw [Nat.div_eq_of_lt (by omega)]; rfl)
    (by rw [show D.length + (ndb - D.length) = ndb by omega]; omega) (by omega)
  rw [f4] at g7; cases g7
  have hDl : (D ++ D').length = ndb := by rw [List.length_append, g4]; omega
  have hlt : D.length < ndb := by omega
  have hres : resize838 e fuel s1 o ndb D.length 1 = .ok (some (s6, ([] ++ ([s.pages.length] ++ tabs')).length, 1)) := by
    unfold resize838
    simp only
    have hyes : o.fatlevel = 0 ∧ 1 ≠ 0 := ⟨hfat, by decide⟩
    rw [if_pos hlt, if_pos hyes]
    simp only [b1, Outcome.ok_bind]
    rw [ho.numblocks, hpm]
    simp only [Outcome.ok_bind, c1, d1, f1]
    rw [a4]
    have : ([s.pages.length] : List Nat).length = 1 := rfl
    rw [this] at g1
    rw [g1]
    rfl
  obtain ⟨i1, s7, o7, i2, i3⟩ := end_838_two e (by omega) s s6 o [] ([s.pages.length] ++ tabs') D D' newLen 1 hp6 ho.kind (by decide) ha
    (Ext.trans hE5 g2 (fun q hq => by
      simp only [List.mem_cons, List.not_mem_nil, or_false] at hq
      rcases hq with hq | hq
      · exact .inl (by rw [hq]; simp)
      · exact .inr (by omega)))
    g3 (by rw [hnd]; exact hDl) (by omega) g5
    (zero_fresh hn0 h0 (fun q hq => by
      simp only [List.cons_append, List.nil_append, List.mem_cons] at hq
      rcases hq with hq | hq
      · omega
      · have := g6 q hq; omega))
    (fun q hq => by
      simp only [List.cons_append, List.nil_append, List.mem_cons] at hq
      rcases hq with hq | hq
      · omega
      · have := g6 q hq; omega) (by simp only [List.length_append, List.length_singleton]; omega) g8
    (head_congr hh5 (fun i hi => g9 i (by omega)))
    (by simp only [List.nil_append]; rw [g5, hDl]; exact hread) (by simp only [List.nil_append]; rw [g5, hDl]; exact hslack)
  refine ⟨s7, o7, _, D', ?_, i3⟩
  unfold setLen838
  rw [if_neg (by omega), if_neg (by omega)]
  simp only [a1, Outcome.ok_bind, a2, hnd, if_pos (show ndb > e.P / 4 - 6 by omega)]
  rw [← hD, hres]
  simp only [Outcome.ok_bind]
  rw [hnd] at i1
  rw [i1]
  simp only [Outcome.ok_bind, i2]

end Verif.Object
