import Verif.Object.ResizeTheorems

/-! # Property theorems: storing anywhere in an object of format 8.0, and histories (C23, C25) -/

namespace Verif.Object
open Verif

theorem rep_frame {e : Env} {s s' : St} {sp : FreeSpec.State} (h : Rep e s sp) (hfr : s'.fr = s.fr)
    (hlen : s'.pages.length = s.pages.length) (hfull : ∀ p ∈ s'.pages, p.length = 4096)
    (hpg : ∀ q, q ∉ sp.used → s'.pages[q]? = s.pages[q]?) : Rep e s' sp := by
  have hnd := FreeSpec.sound_nodup sp h.sound
  simp only [List.nodup_cons, List.mem_cons, List.mem_append, not_or] at hnd
  obtain ⟨⟨_, ⟨_, _⟩, h0⟩, ⟨⟨_, _⟩, h1⟩, h2⟩ := hnd
  rw [List.nodup_append] at h2
  obtain ⟨p1, a1, a2, a3, a4, a5⟩ := h.hdr
  refine ⟨h.P, by rw [hfr]; exact h.block, by rw [hfr]; exact h.kind, by rw [hfr]; exact h.nodata,
    by rw [hfr]; exact h.len, by rw [hfr]; exact h.blocks, by rw [hfr]; exact h.real,
    by rw [hlen]; exact h.total, h.small, hfull,
    h.sound, h.room, h.root, ⟨p1, by rw [hpg 1 h1]; exact a1, a2, a3, a4, a5⟩, ?_⟩
  intro m hm t ht
  obtain ⟨tp, b1, b2⟩ := h.entries m hm t ht
  refine ⟨tp, ?_, b2⟩
  rw [hpg t ?_]
  · exact b1
  · intro hh
    exact h2.2.2 t (by simp [List.mem_of_getElem? ht]) t hh rfl

/-- A store inside a whole object. -/
theorem put_inside (e : Env) (s : St) (sp : FreeSpec.State) (o : Obj) (tabs datas : List Nat) (hr : Rep e s sp)
    (ho : Opened80 s o tabs datas) (hw : Within sp o.block tabs datas) (start : Nat) (buf : Bytes) (hb : buf ≠ [])
    (hin : start + buf.length ≤ o.len) :
    ∃ s' o', putRange e s o start buf = .ok (s', o') ∧ Rep e s' sp ∧ Opened80 s' o' tabs datas ∧ o'.len = o.len ∧
      o'.block = o.block ∧
      (∀ q, q ∉ datas → q ≠ o.block → s'.pages[q]? = s.pages[q]?) ∧
      (∀ i, i < o.len → Spec.byteAt s'.pages 4096 Spec.file80 o.block i =
        if start ≤ i ∧ i < start + buf.length then buf[i - start]? else Spec.byteAt s.pages 4096 Spec.file80 o.block i) := by
  have hpos : 0 < buf.length := List.length_pos_iff.mpr hb
  have hmod := Nat.mod_lt start (show 0 < 4096 by decide)
  have hdm := Nat.div_add_mod start 4096
  have hdl := ho.nDatas
  have hnd := ho.file.distinct
  rw [List.nodup_cons, List.nodup_append] at hnd
  have htab : ∀ j (hj : j < datas.length), ∃ t tp, o.blocks[j / 1023]? = some t ∧ t ∉ datas ∧ s.pages[t]? = some tp ∧
      Spec.word tp (4 + 4 * (j % 1023)) = some datas[j] := by
    intro j hj
    obtain ⟨t, tp, a, b, c⟩ := ho.file.entry j hj
    refine ⟨t, tp, by rw [ho.blocks]; exact a, ?_, b, c⟩
    intro hh
    exact hnd.2.2.2 t (List.mem_of_getElem? a) t hh rfl
  have hk : start / 4096 < datas.length := by omega
  have hex : ∀ q ∈ datas, q < s.pages.length := fun q hq => (used_facts hr (hw q (by simp [hq]))).1
  obtain ⟨t, tp, ht1, ht2, ht3, ht4⟩ := htab _ hk
  obtain ⟨s1, hs1, hwr⟩ := putTab_ok e 4096 1023 4 hr.P (by decide) (by decide) datas o.blocks hnd.2.2.1 buf.length s
    (start / 4096) (start % 4096) t buf hr.full hex htab hmod (Nat.le_refl _) (by omega) (fun _ => ht1)
  have hat : start / 4096 * 4096 + start % 4096 = start := by omega
  rw [hat] at hwr
  have hrep1 : Rep e s1 sp := rep_frame hr hwr.fr hwr.len hwr.full
    (fun q hq => hwr.frame q (fun hh => hq (hw q (by simp [hh]))))
  obtain ⟨hp, h1, h2, h3⟩ := ho.header
  have hhd : o.block ∉ datas := fun hh => hnd.1 (by simp [hh])
  have hp1 : s1.pages[o.block]? = some hp := by rw [hwr.frame _ hhd]; exact h1
  have hl : hp.length = 4096 := hr.full _ (List.mem_of_getElem? h1)
  obtain ⟨s', hq, hq', v1, v2, v3, v4, v5, v6, _⟩ := writeVersion_ok e s1 o 4096 (by decide) (getElem?_some_lt hp1) hrep1.full
  rw [hp1] at v2; cases v2
  simp only [ho.kind, true_or, if_true] at v6
  have hp2 : s'.pages[o.block]? = some hq' := by rw [v4]; exact get_set_eq _ _ _ (getElem?_some_lt hp1)
  have hfr : ∀ q, q ≠ o.block → s'.pages[q]? = s1.pages[q]? := by
    intro q hq
    rw [v4, get_set_ne _ _ _ _ (Ne.symm hq)]
  have hfile : Spec.File80 s'.pages o.block tabs datas := by
    refine file80_header ho.file h1 hp2 (fun i hi => v6 i (by omega)) ?_
    intro q hq
    rw [hfr q (Ne.symm ((head_ne_tabs ho.file).1 q hq)), hwr.frame q (fun hh => hnd.2.2.2 q hq q hh rfl)]
  refine ⟨s', { o with recorded := true }, ?_, rep_set hrep1 (hw _ (by simp)) (by rw [v3]; exact hl) v5 v4, ?_, rfl, rfl, ?_, ?_⟩
  · unfold putRange
    simp only [ho.kind]
    unfold writeTab
    simp only [(idx_ok _ _ _).mpr ht1, (getPage_ok _ _ _).mpr ht3, Outcome.ok_bind, hs1]
    rw [v1]
    simp only [ho.kind]
  · refine ⟨ho.kind, ho.blocks, ho.numblocks, hdl, ho.nTabs, ⟨hq', hp2, ?_, ?_⟩, hfile⟩
    · rw [← h2]
      apply List.ext_getElem?
      intro i
      rw [List.getElem?_take, List.getElem?_take]
      split
      · exact v6 i (by omega)
      · rfl
    · rw [← h3]
      exact word_of_get _ _ _ (fun i _ _ => v6 i (by omega))
  · intro q hq hqh
    rw [hfr q hqh, hwr.frame q hq]
  · intro i hi
    have hi' : i / 4096 < datas.length := by omega
    have hb1 : Spec.byteAt s'.pages 4096 Spec.file80 o.block i = fileByte s1.pages 4096 datas i := by
      unfold Spec.byteAt fileByte
      rw [dataPage_file80 hfile _ hi', List.getElem?_eq_getElem hi']
      simp only [Option.bind_eq_bind, Option.bind_some]
      rw [hfr _ (fun hc => hhd (hc ▸ List.getElem_mem hi'))]
    have hb2 : Spec.byteAt s.pages 4096 Spec.file80 o.block i = fileByte s.pages 4096 datas i := by
      unfold Spec.byteAt fileByte
      rw [dataPage_file80 ho.file _ hi', List.getElem?_eq_getElem hi']
      rfl
    rw [hb1, hb2]
    exact hwr.bytes i

/-- The effect of a store on the bytes of a file: the range is replaced, the bytes that
were there and are outside the range stay. -/
def Spec.Stored (s s' : St) (h : Nat) (len start : Nat) (buf : Bytes) : Prop :=
  (∀ i, i < buf.length → Spec.byteAt s'.pages 4096 Spec.file80 h (start + i) = buf[i]?) ∧
  (∀ i, i < len → (i < start ∨ start + buf.length ≤ i) →
    Spec.byteAt s'.pages 4096 Spec.file80 h i = Spec.byteAt s.pages 4096 Spec.file80 h i)

theorem setData_none (e : Env) (fuel : Nat) (s : St) (o : Obj) (n : Nat) (hne : o.len ≠ n) :
    setLen80 e fuel s { o with data := none } n = setLen80 e fuel s o n := by
  unfold setLen80
  simp only
  rw [if_neg hne, if_neg hne]
  rfl

theorem stores_used {sp : FreeSpec.State} {e : Env} {s : St} (h : Rep e s sp) : sp.total = sp.free.length + sp.own.length + sp.used.length + 2 := by
  have := h.sound.length_eq
  simp at this
  omega

/-- **C23 and C25, format 8.0.** Storing bytes at any position of an object — inside,
across its end, or beyond it — succeeds up to the capacity of 254 tables: the object then
has the length `max len (start + size)`, the range holds the stored bytes, the other
bytes it had are unchanged, and no page of another object has changed. -/
theorem store_80_partial (e : Env) (hslack : 3 * 254 ≤ e.slack) (fuel : Nat) (s : St) (sp : FreeSpec.State) (o : Obj)
    (tabs datas : List Nat) (hr : Rep e s sp) (ho : Opened80 s o tabs datas) (hw : Within sp o.block tabs datas)
    (start : Nat) (buf : Bytes) (hb : buf ≠ []) (hmax : start + buf.length ≤ 254 * (1023 * 4096))
    (hsm : sp.total + 2 * ((start + buf.length + 4095) / 4096) ≤ 2 ^ 32) :
    ∃ s' o' sp' tabs' datas', setData80 e false fuel s o start buf = .ok (some (s', o')) ∧ Rep e s' sp' ∧
      Opened80 s' o' (tabs ++ tabs') (datas ++ datas') ∧ Within sp' o.block (tabs ++ tabs') (datas ++ datas') ∧
      o'.len = max o.len (start + buf.length) ∧ o'.block = o.block ∧ Spec.Stored s s' o.block o.len start buf ∧
      (∀ q ∈ sp.used, q ∉ o.block :: (tabs ++ datas) → q ∈ sp'.used ∧
        q ∉ o.block :: ((tabs ++ tabs') ++ (datas ++ datas')) ∧ s'.pages[q]? = s.pages[q]?) ∧
      sp'.total ≤ sp.total + (tabs'.length + datas'.length) := by
  have hpos : 0 < buf.length := List.length_pos_iff.mpr hb
  rcases Nat.lt_or_ge o.len (start + buf.length) with hc | hc
  · obtain ⟨s1, o1, sp1, tabs', datas', a1, a2, a3, a4, a5, a6, a7, a8, a9, a10, a11⟩ :=
      set_len_grow_80_partial e hslack fuel s sp o tabs datas _ hr ho hw hc hmax hsm
    have hw1 : Within sp1 o1.block (tabs ++ tabs') (datas ++ datas') := by rw [a5]; exact a6
    obtain ⟨s2, o2, b1, b2, b3, b4, b5, b6, b7⟩ := put_inside e s1 sp1 o1 _ _ a2 a3 hw1 start buf hb (by omega)
    have hf1 := a3.file
    rw [a5] at hf1
    have hdl := ho.nDatas
    rw [a5] at b6 b7
    refine ⟨s2, o2, sp1, tabs', datas', ?_, b2, b3, a6, by rw [b4, a4]; omega, b5.trans a5, ⟨?_, ?_⟩, ?_, ?_⟩
    · unfold setData80
      rw [if_neg (by simp), if_neg (by simp [ho.kind]), if_pos hc, setData_none e fuel s o _ (by omega), a1]
      simp only [Outcome.ok_bind, b1]
    · intro i hi
      rw [b7 (start + i) (by omega), if_pos (by omega)]
      congr 1; omega
    · intro i hi hout
      rw [b7 i (by omega), if_neg (by omega)]
      have hi' : i / 4096 < datas.length := by omega
      refine byte_kept ho.file hf1 i hi' (by simp; omega) (by rw [List.getElem_append_left hi']) ?_
      have hm : datas[i / 4096] ∈ datas := List.getElem_mem hi'
      have hq := (head_ne_tabs ho.file).2 _ hm
      exact a9 _ (hw _ (by simp [hm])) (Ne.symm hq.1) hq.2
    · intro q hq hno
      simp only [List.mem_cons, List.mem_append, not_or] at hno
      have hnn : q ∉ tabs' ++ datas' := fun h => a8 q h hq
      simp only [List.mem_append, not_or] at hnn
      refine ⟨a7.mem_iff.mpr (by simp [hq]), ?_, ?_⟩
      · simp [hno.1, hno.2.1, hno.2.2, hnn.1, hnn.2]
      · rw [b6 q (by simp [hno.2.2, hnn.2]) hno.1, a9 q hq hno.1 hno.2.1]
    · have e1 := stores_used hr
      have e2 := stores_used a2
      have e3 := a7.length_eq
      simp only [List.length_append] at e3
      rw [a10] at e2
      omega
  · have ho' : Opened80 s { o with data := none } tabs datas :=
      ⟨ho.kind, ho.blocks, ho.numblocks, ho.nDatas, ho.nTabs, ho.header, ho.file⟩
    obtain ⟨s2, o2, b1, b2, b3, b4, b5, b6, b7⟩ := put_inside e s sp { o with data := none } tabs datas hr ho' hw start buf hb hc
    refine ⟨s2, o2, sp, [], [], ?_, b2, by simpa using b3, by simpa using hw, by rw [b4]; simp; omega, b5, ⟨?_, ?_⟩, ?_, by simp⟩
    · unfold setData80
      rw [if_neg (by simp), if_neg (by simp [ho.kind]), if_neg (by omega), b1]
      rfl
    · intro i hi
      rw [b7 (start + i) (by show start + i < o.len; omega), if_pos (by omega)]
      congr 1; omega
    · intro i hi hout
      rw [b7 i hi, if_neg (by omega)]
    · intro q hq hno
      refine ⟨hq, by simpa using hno, ?_⟩
      simp only [List.mem_cons, List.mem_append, not_or] at hno
      exact b6 q hno.2.2 hno.1

/-- Non-vacuity: a store into the empty file of `emptyFileDb`, across two pages. -/
example (ora : Nat → Bool) : ∃ s' o', setData80 ⟨4096, ora, 762⟩ false 9 (emptyFileDb 3) emptyFile 4095 [1, 2] = .ok (some (s', o')) ∧
    o'.len = 4097 ∧ Spec.byteAt s'.pages 4096 Spec.file80 2 4096 = some 2 := by
  obtain ⟨s', o', sp', tabs, datas, a1, a2, a3, a4, a5, a6, a7, a8, a9⟩ :=
    store_80_partial ⟨4096, ora, 762⟩ (Nat.le_refl 762) 9 (emptyFileDb 3) (freshSpec 3) emptyFile [] []
      (emptyFile_rep _ rfl 3 (by decide) (by decide)) (emptyFile_opened 3 (by decide))
      (by intro q hq; simp at hq; subst hq; decide) 4095 [1, 2] (by decide) (by decide) (by decide)
  exact ⟨s', o', a1, a5, a7.1 1 (by decide)⟩

/-! ## Histories of stores -/

/-- The contents as a user sees them: a growing array of bytes; `none` marks bytes never
stored (a gap left by a store beyond the end). -/
def Spec.write (c : List (Option UInt8)) (start : Nat) (buf : Bytes) : List (Option UInt8) :=
  (List.range (max c.length (start + buf.length))).map fun i =>
    if start ≤ i ∧ i < start + buf.length then buf[i - start]? else (c[i]?).join

/-- The file agrees with the contents wherever they are known. -/
def Spec.Agrees (pages : List Bytes) (h : Nat) (c : List (Option UInt8)) : Prop :=
  ∀ i x, (c[i]?).join = some x → Spec.byteAt pages 4096 Spec.file80 h i = some x

def runStores (e : Env) (fuel : Nat) : St → Obj → List (Nat × Bytes) → Outcome (Option (St × Obj))
  | s, o, [] => .ok (some (s, o))
  | s, o, (start, buf) :: ws => do
    match ← setData80 e false fuel s o start buf with
    | none => .ok none
    | some (s, o) => runStores e fuel s o ws

theorem write_get (c : List (Option UInt8)) (start : Nat) (buf : Bytes) (i : Nat) :
    ((Spec.write c start buf)[i]?).join = if start ≤ i ∧ i < start + buf.length then buf[i - start]? else (c[i]?).join := by
  unfold Spec.write
  by_cases h : i < max c.length (start + buf.length)
  · rw [List.getElem?_map, List.getElem?_range h]
    rfl
  · rw [List.getElem?_eq_none (by simp; omega), if_neg (by omega), List.getElem?_eq_none (by omega)]

theorem write_length (c : List (Option UInt8)) (start : Nat) (buf : Bytes) :
    (Spec.write c start buf).length = max c.length (start + buf.length) := by
  unfold Spec.write
  rw [List.length_map, List.length_range]

theorem store_agrees {s s' : St} {h len start : Nat} {buf : Bytes} {c : List (Option UInt8)} (hs : Spec.Stored s s' h len start buf)
    (hc : c.length = len) (ha : Spec.Agrees s.pages h c) : Spec.Agrees s'.pages h (Spec.write c start buf) := by
  intro i x hx
  rw [write_get] at hx
  split at hx
  · next hin =>
    have := hs.1 (i - start) (by omega)
    rw [show start + (i - start) = i by omega] at this
    rw [this, hx]
  · next hout =>
    have hi : i < len := by
      rw [← hc]
      rcases Nat.lt_or_ge i c.length with h | h
      · exact h
      · rw [List.getElem?_eq_none h] at hx; cases hx
    rw [hs.2 i hi (by omega)]
    exact ha i x hx

theorem stores_inv (e : Env) (hslack : 3 * 254 ≤ e.slack) (fuel : Nat) (ws : List (Nat × Bytes)) :
    ∀ (s : St) (sp : FreeSpec.State) (o : Obj) (tabs datas : List Nat) (c : List (Option UInt8)) (B : Nat), Rep e s sp →
    Opened80 s o tabs datas → Within sp o.block tabs datas → c.length = o.len → Spec.Agrees s.pages o.block c →
    (∀ w ∈ ws, w.2 ≠ [] ∧ w.1 + w.2.length ≤ 254 * (1023 * 4096)) → o.len ≤ 254 * (1023 * 4096) →
    sp.total ≤ B + tabs.length + datas.length → B + 4 * (254 * 1023) ≤ 2 ^ 32 →
    ∃ s' o', runStores e fuel s o ws = .ok (some (s', o')) ∧
      o'.len = (ws.foldl (fun c w => Spec.write c w.1 w.2) c).length ∧ o'.block = o.block ∧
      Spec.Agrees s'.pages o.block (ws.foldl (fun c w => Spec.write c w.1 w.2) c) ∧
      (∀ q ∈ sp.used, q ∉ o.block :: (tabs ++ datas) → s'.pages[q]? = s.pages[q]?) := by
  induction ws with
  | nil =>
    intro s sp o tabs datas c B _ _ _ hc ha _ _ _ _
    exact ⟨s, o, rfl, hc.symm, rfl, ha, fun _ _ _ => rfl⟩
  | cons w ws ih =>
    obtain ⟨start, buf⟩ := w
    intro s sp o tabs datas c B hr ho hw hc ha hws hlen hB hB2
    obtain ⟨hb, hmax⟩ := hws (start, buf) (by simp)
    simp only at hb hmax
    have hdl := ho.nDatas
    have htl := ho.nTabs
    obtain ⟨s1, o1, sp1, t1, d1, a1, a2, a3, a4, a5, a6, a7, a8, a9⟩ :=
      store_80_partial e hslack fuel s sp o tabs datas hr ho hw start buf hb hmax (by omega)
    obtain ⟨s2, o2, b1, b2, b3, b4, b5⟩ := ih s1 sp1 o1 _ _ (Spec.write c start buf) B a2 a3 (by rw [a6]; exact a4)
      (by rw [a5, ← hc]; rw [write_length]) (by rw [a6]; exact store_agrees a7 hc ha)
      (fun w hw => hws w (by simp [hw])) (by omega) (by simp only [List.length_append]; omega) hB2
    refine ⟨s2, o2, ?_, b2, b3.trans a6, by rw [← a6]; exact b4, ?_⟩
    · unfold runStores
      simp only [a1, Outcome.ok_bind, b1]
    · intro q hq hno
      obtain ⟨h1, h2, h3⟩ := a8 q hq hno
      rw [b5 q h1 (by rw [a6]; exact h2), h3]

/-- **C23 and C25, histories.** Every sequence of stores at arbitrary positions leaves the
object with the contents the sequence describes and every other object untouched. -/
theorem store_history_80_partial (e : Env) (hslack : 3 * 254 ≤ e.slack) (fuel : Nat) (ws : List (Nat × Bytes))
    (s : St) (sp : FreeSpec.State) (o : Obj) (tabs datas : List Nat) (c : List (Option UInt8)) (hr : Rep e s sp)
    (ho : Opened80 s o tabs datas) (hw : Within sp o.block tabs datas) (hc : c.length = o.len)
    (ha : Spec.Agrees s.pages o.block c) (hlen : o.len ≤ 254 * (1023 * 4096))
    (hws : ∀ w ∈ ws, w.2 ≠ [] ∧ w.1 + w.2.length ≤ 254 * (1023 * 4096)) (hroom : sp.total + 4 * (254 * 1023) ≤ 2 ^ 32) :
    ∃ s' o', runStores e fuel s o ws = .ok (some (s', o')) ∧
      o'.len = (ws.foldl (fun c w => Spec.write c w.1 w.2) c).length ∧ o'.block = o.block ∧
      Spec.Agrees s'.pages o.block (ws.foldl (fun c w => Spec.write c w.1 w.2) c) ∧
      (∀ q ∈ sp.used, q ∉ o.block :: (tabs ++ datas) → s'.pages[q]? = s.pages[q]?) :=
  stores_inv e hslack fuel ws s sp o tabs datas c sp.total hr ho hw hc ha hws hlen (by omega) hroom

/-- Non-vacuity: three stores into an empty file, the second far beyond the end, the third
overlapping the first. -/
example (ora : Nat → Bool) : ∃ s' o', runStores ⟨4096, ora, 762⟩ 9 (emptyFileDb 3) emptyFile
      [(0, [1, 2, 3]), (9000, [7, 8]), (2, [9, 9])] = .ok (some (s', o')) ∧
    o'.len = 9002 ∧ Spec.byteAt s'.pages 4096 Spec.file80 2 1 = some 2 ∧
    Spec.byteAt s'.pages 4096 Spec.file80 2 3 = some 9 ∧ Spec.byteAt s'.pages 4096 Spec.file80 2 9001 = some 8 := by
  obtain ⟨s', o', a1, a2, a3, a4, a5⟩ :=
    store_history_80_partial ⟨4096, ora, 762⟩ (Nat.le_refl 762) 9 [(0, [1, 2, 3]), (9000, [7, 8]), (2, [9, 9])]
      (emptyFileDb 3) (freshSpec 3) emptyFile [] [] []
      (emptyFile_rep _ rfl 3 (by decide) (by decide)) (emptyFile_opened 3 (by decide))
      (by intro q hq; simp at hq; subst hq; decide) rfl (by intro i x h; simp at h) (by decide) (by simp) (by decide)
  simp only [List.foldl_cons, List.foldl_nil] at a2 a4
  have hb : emptyFile.block = 2 := rfl
  rw [hb] at a4
  refine ⟨s', o', a1, ?_, ?_, ?_, ?_⟩
  · rw [a2, write_length, write_length, write_length]; simp
  · apply a4; rw [write_get, write_get, write_get]; simp
  · apply a4; rw [write_get, write_get, write_get]; simp
  · apply a4; rw [write_get, write_get, write_get]; simp

end Verif.Object
