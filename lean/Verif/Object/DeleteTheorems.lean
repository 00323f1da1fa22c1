import Verif.Object.StoreTheorems

/-! # Property theorems: deleting an object of format 8.0 (C27) -/

namespace Verif.Object
open Verif

/-- What a run of the deletion does with `free`, whatever `free` is: if `R s l` can be kept
up from one release to the next along the list `datas ++ tabs ++ [h, h, …]`, the deletion
succeeds and ends in a state with `R s (datas ++ tabs ++ [h, h, …])`. -/
theorem delete_steps {σ : Type} (view : σ → St) (free : σ → Nat → Outcome σ) (o : Obj) (s0 : St) (tabs datas : List Nat)
    (ho : Opened80 s0 o tabs datas) (h1 : o.block ≠ 1) (h2 : o.block ≠ 2) (R : σ → List Nat → Prop)
    (hview : ∀ s l, R s l → l <+: datas → ∀ q ∈ tabs, (view s).pages[q]? = s0.pages[q]?)
    (hstep : ∀ s l p, R s l → (l ++ [p]) <+: (datas ++ tabs ++ List.replicate tabs.length o.block) →
      ∃ s', free s p = .ok s' ∧ R s' (l ++ [p])) (s : σ) (hs : R s []) :
    ∃ s', deleteObject view free o s = .ok s' ∧ R s' (datas ++ tabs ++ List.replicate tabs.length o.block) := by
  have hdl := ho.nDatas
  have htl := ho.nTabs
  -- the entries of one table
  have hE : ∀ n j k t s, tabs[k]? = some t → 1023 * k + j + n ≤ datas.length → j + n ≤ 1023 → R s (datas.take (1023 * k + j)) →
      ∃ s', freeEntries view free t n j s = .ok s' ∧ R s' (datas.take (1023 * k + j + n)) := by
    intro n
    induction n with
    | zero => intro j k t s _ _ _ hR; exact ⟨s, rfl, hR⟩
    | succ n ih =>
      intro j k t s ht hle hj hR
      have hlt : 1023 * k + j < datas.length := by omega
      obtain ⟨t', tp, e1, e2, e3⟩ := ho.file.entry _ hlt
      have hk : (1023 * k + j) / 1023 = k := by omega
      have hm : (1023 * k + j) % 1023 = j := by omega
      rw [hk, ht] at e1; cases e1
      rw [hm] at e3
      have htv := hview s _ hR (List.take_prefix _ _) t (List.mem_of_getElem? ht)
      rw [e2] at htv
      obtain ⟨s', a1, a2⟩ := hstep s _ datas[1023 * k + j] hR (by
        rw [List.take_append_getElem hlt, List.append_assoc]
        exact (List.take_prefix _ _).trans (List.prefix_append _ _))
      rw [List.take_append_getElem hlt] at a2
      obtain ⟨s'', b1, b2⟩ := ih (j + 1) k t s' ht (by omega) (by omega) a2
      refine ⟨s'', ?_, by rw [show 1023 * k + j + (n + 1) = 1023 * k + (j + 1) + n by omega]; exact b2⟩
      unfold freeEntries
      simp only [peek_of_word htv e3, Outcome.ok_bind, a1, b1]
  have hT : ∀ (ts : List Nat) (k : Nat) (s : σ), tabs.drop k = ts → R s (datas.take (1023 * k)) →
      ∃ s', freeTables view free ts s = .ok s' ∧ R s' datas := by
    intro ts
    induction ts with
    | nil =>
      intro k s hk hR
      have : tabs.length ≤ k := List.drop_eq_nil_iff.mp hk
      refine ⟨s, rfl, ?_⟩
      rwa [List.take_of_length_le (by omega)] at hR
    | cons t ts ih =>
      intro k s hk hR
      have hkl : k < tabs.length := by
        rcases Nat.lt_or_ge k tabs.length with h | h
        · exact h
        · rw [List.drop_eq_nil_of_le h] at hk; cases hk
      have hkt : tabs[k]? = some t := by
        have := List.getElem?_drop (xs := tabs) (i := k) (j := 0)
        rw [hk] at this
        simpa using this.symm
      obtain ⟨tp, c1, c2⟩ := ho.file.counts k t hkt
      have htv := hview s _ hR (List.take_prefix _ _) t (List.mem_of_getElem? hkt)
      rw [c1] at htv
      obtain ⟨s', a1, a2⟩ := hE (min 1023 (datas.length - 1023 * k)) 0 k t s hkt (by omega) (by omega) hR
      have htake : datas.take (1023 * k + 0 + min 1023 (datas.length - 1023 * k)) = datas.take (1023 * (k + 1)) := by
        rcases Nat.lt_or_ge (datas.length - 1023 * k) 1023 with h | h
        · rw [List.take_of_length_le (by omega), List.take_of_length_le (by omega)]
        · congr 1; omega
      rw [htake] at a2
      obtain ⟨s'', b1, b2⟩ := ih (k + 1) s' (by rw [← List.tail_drop, hk]; rfl) a2
      refine ⟨s'', ?_, b2⟩
      unfold freeTables
      simp only [(getPage_ok _ _ _).mpr htv, peek_of_word htv c2, Outcome.ok_bind, a1, b1]
  have hA : ∀ (ps l : List Nat) (s : σ), R s l → (l ++ ps) <+: (datas ++ tabs ++ List.replicate tabs.length o.block) →
      ∃ s', freeAll free ps s = .ok s' ∧ R s' (l ++ ps) := by
    intro ps
    induction ps with
    | nil => intro l s hR _; exact ⟨s, rfl, by simpa using hR⟩
    | cons p ps ih =>
      intro l s hR hpre
      obtain ⟨s', a1, a2⟩ := hstep s l p hR (by
        refine List.IsPrefix.trans ?_ hpre
        exact ⟨ps, by simp⟩)
      obtain ⟨s'', b1, b2⟩ := ih (l ++ [p]) s' a2 (by simpa using hpre)
      refine ⟨s'', ?_, by simpa using b2⟩
      unfold freeAll
      simp only [a1, Outcome.ok_bind, b1]
  obtain ⟨sa, a1, a2⟩ := hT tabs 0 s rfl (by simpa using hs)
  obtain ⟨sb, b1, b2⟩ := hA tabs datas sa a2 (List.prefix_append _ _)
  obtain ⟨sc, c1, c2⟩ := hA (List.replicate tabs.length o.block) _ sb b2 List.prefix_rfl
  refine ⟨sc, ?_, c2⟩
  unfold deleteObject
  rw [if_neg (by omega), ho.numblocks, ho.blocks, List.take_length]
  simp only [a1, Outcome.ok_bind, b1, c1]

/-- **C27, which pages are released.** Recording the calls of `set_block_as_free`: the data
pages in order, then the tables, then the header page *once per table*. -/
theorem delete_calls (s : St) (o : Obj) (tabs datas : List Nat) (ho : Opened80 s o tabs datas) (h1 : o.block ≠ 1)
    (h2 : o.block ≠ 2) :
    deleteObject (σ := List Nat) (fun _ => s) (fun l p => .ok (l ++ [p])) o [] =
      .ok (datas ++ tabs ++ List.replicate tabs.length o.block) := by
  obtain ⟨s', a1, a2⟩ := delete_steps (σ := List Nat) (fun _ => s) (fun l p => .ok (l ++ [p])) o s tabs datas ho h1 h2
    (fun t l => t = l) (fun _ _ _ _ _ _ => rfl) (fun t l p h _ => ⟨_, rfl, by simp [h]⟩) [] rfl
  rw [a1, a2]

/-- **C27, counterexample in general.** The calls release each page of the object exactly
once if and only if the object has exactly one table, that is, holds between 1 and
1023 data pages: an empty object's header is never released, and the header of an
object with more tables is released several times. -/
theorem delete_once_iff (s : St) (o : Obj) (tabs datas : List Nat) (ho : Opened80 s o tabs datas) :
    ((datas ++ tabs ++ List.replicate tabs.length o.block).Perm (o.block :: (tabs ++ datas)) ↔
      0 < o.len ∧ o.len ≤ 1023 * 4096) := by
  have hdl := ho.nDatas
  have htl := ho.nTabs
  have : (0 < o.len ∧ o.len ≤ 1023 * 4096) ↔ tabs.length = 1 := by omega
  rw [this]
  constructor
  · intro h
    have := h.length_eq
    simp at this
    omega
  · intro h
    rw [h, List.perm_iff_count]
    intro x
    simp only [List.count_append, List.count_cons, List.replicate_one, List.count_nil]
    omega

/-- Deleting an object with one table, with the room left for further releases. -/
theorem delete_one_table_more (e : Env) (hslack : 3 * 254 ≤ e.slack) (s : St) (sp : FreeSpec.State) (o : Obj)
    (tabs datas : List Nat) (hr : Rep e s sp) (ho : Opened80 s o tabs datas) (hw : Within sp o.block tabs datas)
    (h1 : o.block ≠ 1) (h2 : o.block ≠ 2) (hpos : 0 < o.len) (hle : o.len ≤ 1023 * 4096)
    (k : Nat) (hb : Budget sp (datas.length + 2 + k)) :
    ∃ s' sp', deleteObject id (setFree e) o s = .ok s' ∧ Rep e s' sp' ∧
      sp.used.Perm (o.block :: (tabs ++ datas) ++ sp'.used) ∧ sp'.total = sp.total ∧
      (∀ q ∈ sp'.used, s'.pages[q]? = s.pages[q]?) ∧ Budget sp' k := by
  have hdl := ho.nDatas
  have htl := ho.nTabs
  have hall := (delete_once_iff s o tabs datas ho).mpr ⟨hpos, hle⟩
  generalize hL : datas ++ tabs ++ List.replicate tabs.length o.block = L at hall
  have hLn : L.Nodup := hall.nodup_iff.mpr ho.file.distinct
  have hLl : L.length = datas.length + 2 := by rw [hall.length_eq]; simp; omega
  have hLu : ∀ q ∈ L, q ∈ sp.used := fun q hq => hw q (hall.mem_iff.mp hq)
  obtain ⟨s', a1, sp', a2, a3, a4, a5, a6⟩ := delete_steps id (setFree e) o s tabs datas ho h1 h2
    (fun s' l => ∃ sp', Rep e s' sp' ∧ sp.used.Perm (l ++ sp'.used) ∧ sp'.total = sp.total ∧
      (∀ q ∈ sp'.used, s'.pages[q]? = s.pages[q]?) ∧ Budget sp' (L.length - l.length + k))
    (fun s' l h hl q hq => by
      obtain ⟨sp1, _, h2, _, h4, _⟩ := h
      refine h4 q ?_
      have hm := h2.mem_iff.mp (hw q (by simp [hq]))
      simp only [List.mem_append] at hm
      refine hm.resolve_left (fun hh => ?_)
      exact ((head_ne_tabs ho.file).2 q (hl.subset hh)).2 hq)
    (fun s1 l p h hpre => by
      rw [hL] at hpre
      obtain ⟨sp1, b1, b2, b3, b4, b5⟩ := h
      have hpl : p ∉ l := by
        have := hLn.sublist hpre.sublist
        rw [List.nodup_append] at this
        intro hh
        exact this.2.2 p hh p (by simp) rfl
      have hpu : p ∈ sp1.used := by
        have hm := b2.mem_iff.mp (hLu p (hpre.subset (by simp)))
        simp only [List.mem_append] at hm
        exact hm.resolve_left hpl
      have hll := hpre.length_le
      simp only [List.length_append, List.length_singleton] at hll
      have hb' : Budget sp1 ((L.length - (l ++ [p]).length + k) + 1) :=
        budget_mono b5 (by simp only [List.length_append, List.length_singleton]; omega)
      obtain ⟨s2, c1, c2, c3, c4, c5⟩ := setFree_refines e s1 sp1 b1 p hpu hb'.1 hslack
      obtain ⟨r1, r2, r3⟩ := release_used b1 hpu
      refine ⟨s2, c1, FreeSpec.release sp1 p, c2, ?_, r3.trans b3, ?_, budget_release b1 hb' p⟩
      · have := b2.trans (List.Perm.append_left l r2)
        simpa using this
      · intro q hq
        have hq1 : q ∈ sp1.used := r2.mem_iff.mpr (by simp [hq])
        rw [c3 q hq1, b4 q hq1])
    s ⟨sp, hr, by simp, rfl, fun _ _ => rfl, by rw [hLl]; exact budget_mono hb (by simp)⟩
  rw [hL] at a3
  refine ⟨s', sp', a1, a2, ?_, a4, ?_⟩
  · exact a3.trans (List.Perm.append_right _ hall)
  · exact ⟨a5, budget_mono a6 (by omega)⟩

/-- **C27.** Deleting an object that has one table (1 to 1023 data pages) returns each of
its pages to the allocator exactly once: afterwards the pages in use are those in use
before without the object's, no other page in use has changed, and the free-page
list is again a correct one. -/
theorem delete_one_table_partial (e : Env) (hslack : 3 * 254 ≤ e.slack) (s : St) (sp : FreeSpec.State) (o : Obj)
    (tabs datas : List Nat) (hr : Rep e s sp) (ho : Opened80 s o tabs datas) (hw : Within sp o.block tabs datas)
    (h1 : o.block ≠ 1) (h2 : o.block ≠ 2) (hpos : 0 < o.len) (hle : o.len ≤ 1023 * 4096)
    (hb : Budget sp (datas.length + 2)) :
    ∃ s' sp', deleteObject id (setFree e) o s = .ok s' ∧ Rep e s' sp' ∧
      sp.used.Perm (o.block :: (tabs ++ datas) ++ sp'.used) ∧ sp'.total = sp.total ∧
      (∀ q ∈ sp'.used, s'.pages[q]? = s.pages[q]?) := by
  obtain ⟨s', sp', a1, a2, a3, a4, a5, _⟩ := delete_one_table_more e hslack s sp o tabs datas hr ho hw h1 h2 hpos hle 0 hb
  exact ⟨s', sp', a1, a2, a3, a4, a5⟩

/-- Non-vacuity: a file with two data pages is built by a store, moved to page 3 of a
database with five pages in use, and then deleted. -/
def oneFileDb : St := { freshDb 3 with pages := (freshDb 3).pages.set 3 freshHeader }

def oneFile : Obj := ⟨.data80, 3, 0, 1, 0, 0, [], none, 0, 0, 1, 0, false⟩

example (ora : Nat → Bool) : ∃ s1 o1 s2, ∃ sp1 sp2 : FreeSpec.State, setData80 ⟨4096, ora, 762⟩ false 9 oneFileDb oneFile 4095 [1, 2] = .ok (some (s1, o1)) ∧
    deleteObject id (setFree ⟨4096, ora, 762⟩) o1 s1 = .ok s2 ∧ Rep ⟨4096, ora, 762⟩ s2 sp2 ∧ 3 ∉ sp2.used ∧
    sp2.used.length + 4 = sp1.used.length := by
  have hlt : 3 < (freshDb 3).pages.length := by
    unfold freshDb; rw [List.length_cons, List.length_cons, List.length_replicate]; omega
  have hp : oneFileDb.pages[3]? = some freshHeader := by
    unfold oneFileDb; exact get_set_eq _ _ _ hlt
  have hrep : Rep ⟨4096, ora, 762⟩ oneFileDb (freshSpec 3) := by
    refine rep_set (fresh_rep _ rfl 3 (by decide)) (q := 3) (p := freshHeader) (by decide) ?_ rfl rfl
    rw [freshHeader, length_splice _ _ _ (by rw [List.length_replicate]; decide)]; exact List.length_replicate
  have hop : Opened80 oneFileDb oneFile [] [] := by
    refine ⟨rfl, rfl, rfl, by decide, by decide, ⟨freshHeader, hp, rfl, freshHeader_word 8 (by omega) (by omega)⟩, ?_⟩
    exact ⟨⟨freshHeader, hp, by simp⟩, by simp, by simp, by simp⟩
  obtain ⟨s1, o1, sp1, tabs, datas, a1, a2, a3, a4, a5, a6, a7, a8, a9⟩ :=
    store_80_partial ⟨4096, ora, 762⟩ (Nat.le_refl 762) 9 oneFileDb (freshSpec 3) oneFile [] [] hrep hop
      (by intro q hq; simp at hq; subst hq; decide) 4095 [1, 2] (by decide) (by decide) (by decide)
  have hlen : o1.len = 4097 := a5
  have hblk : o1.block = 3 := a6
  simp only [List.nil_append] at a3 a4
  have htot : sp1.total ≤ 5 + (tabs.length + datas.length) := a9
  have hd := a3.nDatas
  have ht := a3.nTabs
  have e2 := stores_used a2
  have hd2 : datas.length = 2 := by omega
  have ht1 : tabs.length = 1 := by omega
  obtain ⟨s2, sp2, b1, b2, b3, b4, b5⟩ := delete_one_table_partial ⟨4096, ora, 762⟩ (Nat.le_refl 762) s1 sp1 o1 tabs datas a2 a3
    (by rw [a6]; exact a4) (by omega) (by omega) (by omega) (by omega) ⟨by omega, by omega⟩
  refine ⟨s1, o1, s2, sp1, sp2, a1, b1, b2, ?_, ?_⟩
  · have hn := b3.nodup_iff.mp (rep_used_nodup a2)
    rw [hblk, List.cons_append, List.nodup_cons] at hn
    exact fun hh => hn.1 (by simp [hh])
  · have := b3.length_eq
    simp at this
    omega

/-- **C27.** The table of free pages (block 1) and the root object (block 2) cannot be
deleted: the call is refused and releases nothing. -/
theorem delete_refuses_service_objects {σ : Type} (view : σ → St) (free : σ → Nat → Outcome σ) (o : Obj) (s : σ)
    (h : o.block = 1 ∨ o.block = 2) : deleteObject view free o s = .throw := by
  unfold deleteObject
  rw [if_pos h]

example : deleteObject id (setFree ⟨4096, fun _ => true, 762⟩) { oneFile with block := 2 } oneFileDb = .throw :=
  delete_refuses_service_objects _ _ _ _ (.inr rfl)

/-- What a second release of the same page leads to: the page is handed out twice, so two
objects share it (`set_block_as_free`, then two calls of `get_free_block`). -/
theorem released_twice_given_twice :
    (do
      let e : Env := ⟨4096, fun _ => true, 762⟩
      let s ← setFree e (freshDb 3) 2
      let s ← setFree e s 3
      let s ← setFree e s 3
      let (a, s) ← getFree e s
      let (b, _) ← getFree e s
      pure (a, b)) = .ok (3, 3) := by
  decide +kernel

end Verif.Object
