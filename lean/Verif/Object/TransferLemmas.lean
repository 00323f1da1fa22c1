import Verif.Unicode.Theorems
import Verif.Object.TransferSpec

/-! # Helper lemmas for exporting and importing the files of a table -/

namespace Verif.Object.Transfer
open Verif

theorem file80_frame {pages pages' : List Bytes} {h : Nat} {tabs datas : List Nat} (hf : Spec.File80 pages h tabs datas)
    (hs : ∀ q ∈ h :: (tabs ++ datas), pages'[q]? = pages[q]?) : Spec.File80 pages' h tabs datas := by
  refine ⟨?_, ?_, ?_, hf.distinct⟩
  · obtain ⟨hp, a, b⟩ := hf.root
    exact ⟨hp, by rw [hs h (by simp), a], b⟩
  · intro k hk
    obtain ⟨t, tp, a, b, c⟩ := hf.entry k hk
    exact ⟨t, tp, a, by rw [hs t (by simp [List.mem_of_getElem? a]), b], c⟩
  · intro k t ht
    obtain ⟨tp, a, b⟩ := hf.counts k t ht
    exact ⟨tp, by rw [hs t (by simp [List.mem_of_getElem? ht]), a], b⟩

theorem owned_frame {s s' : St} {sp sp' : FreeSpec.State} {o : Obj} {ps : List Nat} (h : Owned s sp o ps)
    (hs : ∀ q ∈ ps, q ∈ sp'.used ∧ s'.pages[q]? = s.pages[q]?) : Owned s' sp' o ps := by
  obtain ⟨tabs, datas, rfl, ho, hw⟩ := h
  obtain ⟨hp, a, b, c⟩ := ho.header
  exact ⟨tabs, datas, rfl, ⟨ho.kind, ho.blocks, ho.numblocks, ho.nDatas, ho.nTabs,
    ⟨hp, by rw [(hs _ (by simp)).2, a], b, c⟩, file80_frame ho.file (fun q hq => (hs q hq).2)⟩, fun q hq => (hs q hq).1⟩

theorem part_frame {s s' : St} {sp sp' : FreeSpec.State} {o : Option Obj} {ps : List Nat} (h : Part s sp o ps)
    (hs : ∀ q ∈ ps, q ∈ sp'.used ∧ s'.pages[q]? = s.pages[q]?) : Part s' sp' o ps := by
  cases o with
  | none => exact h
  | some o => exact owned_frame h hs

theorem part_used {s : St} {sp : FreeSpec.State} {o : Option Obj} {ps : List Nat} (h : Part s sp o ps) : ∀ q ∈ ps, q ∈ sp.used := by
  cases o with
  | none => intro q hq; cases h; cases hq
  | some o => obtain ⟨tabs, datas, rfl, _, hw⟩ := h; exact hw

/-- A file with its contents and versions. -/
structure Full (s : St) (sp : FreeSpec.State) (o : Obj) (ps : List Nat) (b : Bytes) (v : Nat × Nat) : Prop where
  owned : Owned s sp o ps
  len : o.len = b.length
  begins : Spec.Begins s.pages 4096 Spec.file80 o.block b
  vers : ∃ hp, s.pages[o.block]? = some hp ∧ Spec.word hp 12 = some v.1 ∧ Spec.word hp 16 = some v.2

theorem begins_frame {pages pages' : List Bytes} {h : Nat} {tabs datas : List Nat} (hf : Spec.File80 pages h tabs datas)
    (hf' : Spec.File80 pages' h tabs datas) (hs : ∀ q ∈ datas, pages'[q]? = pages[q]?) {b : Bytes}
    (hl : datas.length = (b.length + 4095) / 4096) (hb : Spec.Begins pages 4096 Spec.file80 h b) :
    Spec.Begins pages' 4096 Spec.file80 h b := by
  intro i hi
  have hi' : i / 4096 < datas.length := by omega
  rw [byte_kept hf hf' i hi' hi' rfl (hs _ (List.getElem_mem hi')), hb i hi]

theorem full_frame {s s' : St} {sp sp' : FreeSpec.State} {o : Obj} {ps : List Nat} {b : Bytes} {v : Nat × Nat}
    (h : Full s sp o ps b v) (hs : ∀ q ∈ ps, q ∈ sp'.used ∧ s'.pages[q]? = s.pages[q]?) : Full s' sp' o ps b v := by
  have ho' := owned_frame h.owned hs
  obtain ⟨tabs, datas, rfl, ho, hw⟩ := h.owned
  have hf' := file80_frame ho.file (fun q hq => (hs q hq).2)
  refine ⟨ho', h.len, begins_frame ho.file hf' (fun q hq => (hs q (by simp [hq])).2) (by rw [ho.nDatas, h.len]) h.begins, ?_⟩
  obtain ⟨hp, a, c⟩ := h.vers
  exact ⟨hp, by rw [(hs _ (by simp)).2, a], c⟩

theorem full_carries {e : Env} {s : St} {sp : FreeSpec.State} {o : Obj} {ps : List Nat} {b : Bytes} {v : Nat × Nat} (hr : Rep e s sp)
    (h : Full s sp o ps b v) : Carries s.pages o.block b v := by
  obtain ⟨tabs, datas, rfl, ho, hw⟩ := h.owned
  have hb1 : o.block ≠ 1 := (used_facts hr (hw _ (by simp))).2.2.1
  obtain ⟨o', a1, a2, a3, a4, a5, a6⟩ := opened_reopens s o tabs datas ho hb1 hr.full
  obtain ⟨hp, b1, _, _, _, _, _, _, _, b2, b3, _⟩ := init_80 _ _ _ _ hb1 a1
  obtain ⟨hp', c1, c2, c3⟩ := h.vers
  rw [b1] at c1
  cases c1
  rw [c2] at b2
  rw [c3] at b3
  refine ⟨o', a1, ?_, ?_⟩
  · refine save_to_file_80 _ _ _ hb1 a1 b (by rw [a2, h.len]) ?_
    intro i hi
    rw [Nat.zero_add, h.begins i hi, List.getElem?_eq_getElem hi]
  · unfold currentVersion
    cases v
    simp only [Option.some.injEq] at b2 b3
    rw [← b2, ← b3]

/-- Bytes 12 to 19 of the header page do not matter for the shape. -/
theorem header_changed {s s' : St} {o : Obj} {tabs datas : List Nat} (ho : Opened80 s o tabs datas) {hp hp' : Bytes}
    (h1 : s.pages[o.block]? = some hp) (h2 : s'.pages = s.pages.set o.block hp')
    (h3 : ∀ i, i < 12 ∨ 20 ≤ i → hp'[i]? = hp[i]?) : Opened80 s' o tabs datas := by
  have hlt := getElem?_some_lt h1
  have hp2 : s'.pages[o.block]? = some hp' := by rw [h2]; exact get_set_eq _ _ _ hlt
  obtain ⟨hq, a, b, c⟩ := ho.header
  rw [h1] at a
  cases a
  refine ⟨ho.kind, ho.blocks, ho.numblocks, ho.nDatas, ho.nTabs, ⟨hp', hp2, ?_, ?_⟩, ?_⟩
  · rw [← b]
    apply List.ext_getElem?
    intro i
    rw [List.getElem?_take, List.getElem?_take]
    split
    · exact h3 i (by omega)
    · rfl
  · rw [← c]
    exact word_of_get _ _ _ (fun i _ _ => h3 i (by omega))
  · refine file80_header ho.file h1 hp2 (fun i hi => h3 i (by omega)) ?_
    intro q hq
    rw [h2, get_set_ne _ _ _ _ ((head_ne_tabs ho.file).1 q hq)]

theorem putVersions_all {e : Env} {s : St} {sp : FreeSpec.State} {o : Obj} {ps : List Nat} (hr : Rep e s sp) (ho : Owned s sp o ps)
    (v : Nat × Nat) (h1 : v.1 < 2 ^ 32) (h2 : v.2 < 2 ^ 32) :
    ∃ s', putVersions e s o.block v = .ok s' ∧ Rep e s' sp ∧ Owned s' sp o ps ∧
      (∀ b : Bytes, o.len = b.length → Spec.Begins s.pages 4096 Spec.file80 o.block b → Full s' sp o ps b v) ∧
      (∀ q, q ≠ o.block → s'.pages[q]? = s.pages[q]?) := by
  obtain ⟨tabs, datas, rfl, hop, hw⟩ := ho
  have hu : o.block ∈ sp.used := hw _ (by simp)
  obtain ⟨hp, p1, p2⟩ := page_of_used hr hu
  have hlt := getElem?_some_lt p1
  obtain ⟨s1, a1, a2, a3⟩ := poke_used hr hu p1 12 (le32 v.1) (by rw [length_le32]; omega)
  have p3 : s1.pages[o.block]? = some (splice hp 12 (le32 v.1)) := by rw [a3]; exact get_set_eq _ _ _ hlt
  obtain ⟨s2, b1, b2, b3⟩ := poke_used a2 hu p3 16 (le32 v.2) (by rw [length_le32]; omega)
  have hl1 : (splice hp 12 (le32 v.1)).length = 4096 := by rw [length_splice _ _ _ (by rw [length_le32]; omega)]; exact p2
  have hs2 : s2.pages = s.pages.set o.block (splice (splice hp 12 (le32 v.1)) 16 (le32 v.2)) := by
    rw [b3, a3, List.set_set]
  have hop' : Opened80 s2 o tabs datas := by
    refine header_changed hop p1 hs2 ?_
    intro i hi
    rw [splice_get_out _ _ _ _ (by rw [length_le32]; omega) (by rw [length_le32]; omega),
      splice_get_out _ _ _ _ (by rw [length_le32]; omega) (by rw [length_le32]; omega)]
  have hfr : ∀ q, q ≠ o.block → s2.pages[q]? = s.pages[q]? := by
    intro q hq
    rw [hs2, get_set_ne _ _ _ _ (Ne.symm hq)]
  refine ⟨s2, ?_, b2, ⟨tabs, datas, rfl, hop', hw⟩, fun b hl hb => ⟨⟨tabs, datas, rfl, hop', hw⟩, hl, ?_, ?_⟩, hfr⟩
  · unfold putVersions
    rw [touch_read e s _ hlt]
    simp only [Outcome.ok_bind, a1, b1]
  · refine begins_frame hop.file hop'.file ?_ (by rw [hop.nDatas, hl]) hb
    intro q hq
    exact hfr q (Ne.symm ((head_ne_tabs hop.file).2 q hq).1)
  · refine ⟨_, by rw [hs2]; exact get_set_eq _ _ _ hlt, ?_, ?_⟩
    · rw [word_splice_out _ _ _ _ (by rw [length_le32]; omega) (by rw [length_le32]; omega)]
      exact word_splice_in _ _ _ (by omega) h1
    · exact word_splice_in _ _ _ (by omega) h2

theorem putVersions_ok {e : Env} {s : St} {sp : FreeSpec.State} {o : Obj} {ps : List Nat} (hr : Rep e s sp) (ho : Owned s sp o ps)
    (v : Nat × Nat) (h1 : v.1 < 2 ^ 32) (h2 : v.2 < 2 ^ 32) (b : Bytes) (hl : o.len = b.length)
    (hb : Spec.Begins s.pages 4096 Spec.file80 o.block b) :
    ∃ s', putVersions e s o.block v = .ok s' ∧ Rep e s' sp ∧ Full s' sp o ps b v ∧
      (∀ q, q ≠ o.block → s'.pages[q]? = s.pages[q]?) := by
  obtain ⟨s', a1, a2, _, a4, a5⟩ := putVersions_all hr ho v h1 h2
  exact ⟨s', a1, a2, a4 b hl hb, a5⟩

theorem newObj_ok {e : Env} {s : St} {sp : FreeSpec.State} (hr : Rep e s sp) (hsm : sp.total < 2 ^ 32) :
    ∃ s' o, newObj e false s = .ok (s', o) ∧ Rep e s' (FreeSpec.alloc sp).2 ∧ Opened80 s' o [] [] ∧
      o.block = (FreeSpec.alloc sp).1 ∧ o.len = 0 ∧ (∀ q ∈ sp.used, s'.pages[q]? = s.pages[q]?) := by
  obtain ⟨s1, a1, a2, a3, _⟩ := getFree_refines e s sp hr hsm
  obtain ⟨f1, f2, f3, f4, f5⟩ := alloc_is_fresh sp hr.sound
  have hu := alloc_used sp
  generalize (FreeSpec.alloc sp).1 = bl at *
  generalize (FreeSpec.alloc sp).2 = sp1 at *
  have hblu : bl ∈ sp1.used := by rw [hu]; simp
  obtain ⟨s2, p, b1, b2, b3, b4⟩ := touch_used a2 hblu
  obtain ⟨p2, c1, c2⟩ := page_of_used b2 hblu
  have hlt := getElem?_some_lt c1
  have hzl : (List.replicate 4096 (0 : UInt8)).length = 4096 := List.length_replicate
  have hfh : freshHeader = splice (List.replicate 4096 0) 0 sigObj := rfl
  have hfw := freshHeader_word 8 (by omega) (by omega)
  have hft : freshHeader.take 8 = sigObj := by
    rw [hfh]; unfold splice; rfl
  have hP := hr.P
  generalize hz : List.replicate 4096 (0 : UInt8) = z at hzl hfh
  obtain ⟨s3, d1, d2, d3⟩ := poke_used b2 hblu c1 0 z (by omega)
  have hsz : splice p2 0 z = z := by
    unfold splice
    rw [List.take_zero, List.nil_append, List.drop_of_length_le (by omega), List.append_nil]
  rw [hsz] at d3
  have c3 : s3.pages[bl]? = some z := by rw [d3]; exact get_set_eq _ _ _ hlt
  obtain ⟨s4, e1, e2, e3⟩ := poke_used d2 hblu c3 0 sigObj (by decide)
  rw [← hfh] at e3
  have hlt3 := getElem?_some_lt c3
  have c4 : s4.pages[bl]? = some freshHeader := by rw [e3]; exact get_set_eq _ _ _ hlt3
  have hop : Opened80 s4 ⟨.data80, bl, 0, 1, 0, 0, [], none, 0, 0, 1, 0, false⟩ [] [] :=
    ⟨rfl, rfl, rfl, by show 0 = (0 + 4095) / 4096; decide, rfl, ⟨freshHeader, c4, hft, hfw⟩, ⟨⟨freshHeader, c4, by simp⟩, by simp, by simp, by simp⟩⟩
  obtain ⟨o, g1, g2, g3, g4, g5, g6⟩ := opened_reopens s4 _ [] [] hop f4 e2.full
  simp only at g1 g2 g3 g4 g5
  refine ⟨s4, o, ?_, e2, ?_, g5, g2, ?_⟩
  · unfold newObj
    simp only [a1, Outcome.ok_bind, b1, hP, hz, d1, Bool.false_eq_true, if_false, e1, g1]
  · refine ⟨g6, g3, by rw [g4]; rfl, by rw [g2]; decide, by decide, ?_, ?_⟩
    · rw [g5, g2]; exact ⟨freshHeader, c4, hft, hfw⟩
    · rw [g5]; exact hop.file
  · intro q hq
    have hqb : bl ≠ q := fun hh => f1 (hh ▸ hq)
    rw [e3, get_set_ne _ _ _ _ hqb, d3, get_set_ne _ _ _ _ hqb, b4, get_set_ne _ _ _ _ hqb]
    exact a3 q hq

theorem part_length {o : Obj} {tabs datas ps : List Nat} (h : ps = o.block :: (tabs ++ datas)) :
    datas.length ≤ ps.length := by
  rw [h]; simp; omega

/-- Empty contents for an empty file. -/
theorem set_whole_nothing (e : Env) (fuel : Nat) (s : St) (sp : FreeSpec.State) (o : Obj) (tabs datas : List Nat) (hr : Rep e s sp)
    (ho : Opened80 s o tabs datas) (hw : Within sp o.block tabs datas) (hl : o.len = 0) :
    ∃ s' o', setWhole e false fuel s o [] = .ok (some (s', o')) ∧ Rep e s' sp ∧ Opened80 s' o' tabs datas ∧ o'.len = 0 ∧
      o'.block = o.block ∧ (∀ q, q ≠ o.block → s'.pages[q]? = s.pages[q]?) := by
  have hu : o.block ∈ sp.used := hw _ (by simp)
  have hd0 : datas.length = 0 := by rw [ho.nDatas, hl]
  have ht0 : tabs.length = 0 := by rw [ho.nTabs, hd0]
  have hn0 : o.numblocks = 0 := by rw [ho.numblocks, ht0]
  obtain ⟨s', hp, hp', v1, v2, v3, v4, v5, v6, _⟩ := writeVersion_ok e s { o with data := none } 4096 (by decide)
    (used_facts hr hu).1 hr.full
  simp only [ho.kind, true_or, if_true] at v1 v2 v4 v6
  rw [hl, hn0] at v1
  have ho' : Opened80 s { o with data := none, recorded := true } tabs datas :=
    ⟨ho.kind, ho.blocks, ho.numblocks, ho.nDatas, ho.nTabs, ho.header, ho.file⟩
  refine ⟨s', { o with data := none, recorded := true }, ?_, ?_, header_changed ho' v2 v4 (fun i hi => v6 i (by omega)), hl, rfl, ?_⟩
  · unfold setWhole setLen80 putWhole
    simp only [ho.kind, Bool.false_eq_true, if_false, hl, List.length_nil, if_true, Outcome.ok_bind, hn0, wholeTabs80]
    rw [v1]
    rfl
  · have hpl : hp.length = 4096 := hr.full hp (List.mem_of_getElem? v2)
    exact rep_set hr hu (p := hp') (by rw [v3, hpl]) v5 v4
  · intro q hq
    rw [v4, get_set_ne _ _ _ _ (Ne.symm hq)]

/-- What the import of one file achieves. -/
structure Step (e : Env) (s : St) (sp : FreeSpec.State) (ps : List Nat) (b : Bytes) (v : Nat × Nat) (k : Nat) (s' : St)
    (sp' : FreeSpec.State) (o' : Obj) (ps' : List Nat) : Prop where
  rep : Rep e s' sp'
  full : Full s' sp' o' ps' b v
  frame : ∀ q ∈ sp.used, q ∉ ps → q ∈ sp'.used ∧ q ∉ ps' ∧ s'.pages[q]? = s.pages[q]?
  budget : Budget sp' k
  total : sp'.total ≤ sp.total + 2 * ((b.length + 4095) / 4096) + 1

/-- The import of one file into a file that is there. -/
theorem import_old {e : Env} (hslack : 3 * 254 ≤ e.slack) {fuel : Nat} {s : St} {sp : FreeSpec.State} {o : Obj} {ps : List Nat}
    {b : Bytes} {v : Nat × Nat} {k : Nat} (hr : Rep e s sp) (ho : Owned s sp o ps) (hfit : Fits (some o) b)
    (h1 : v.1 < 2 ^ 32) (h2 : v.2 < 2 ^ 32) (hsm : sp.total + 2 * ((b.length + 4095) / 4096) ≤ 2 ^ 32)
    (hbu : Budget sp (2 * ps.length + k)) (hfuel : ps.length < fuel) :
    ∃ s' o' sp' ps', (do
        match ← setWhole e false fuel s o b with
        | none => .ok none
        | some (s, o) => do
          let s ← putVersions e s o.block v
          .ok (some (s, o)) : Outcome (Option (St × Obj))) = .ok (some (s', o')) ∧
      Step e s sp ps b v k s' sp' o' ps' ∧ o'.block = o.block ∧
      sp'.total ≤ sp.total + 2 * ((b.length + 4095) / 4096) := by
  obtain ⟨tabs, datas, hps, hop, hw⟩ := ho
  have hpl : datas.length ≤ ps.length := part_length hps
  by_cases hb : b = []
  · have hl := hfit.empty hb o rfl
    subst hb
    obtain ⟨s1, o1, a1, a2, a3, a4, a5, a6⟩ := set_whole_nothing e fuel s sp o tabs datas hr hop hw hl
    have hown : Owned s1 sp o1 ps := ⟨tabs, datas, by rw [a5]; exact hps, a3, by rw [a5]; exact hw⟩
    obtain ⟨s2, b1, b2, b3, b4⟩ := putVersions_ok a2 hown v h1 h2 [] a4 (by intro i hi; cases hi)
    refine ⟨s2, o1, sp, ps, ?_, ⟨b2, b3, ?_, budget_mono hbu (by omega), by omega⟩, a5, by omega⟩
    · simp only [a1, Outcome.ok_bind, b1]
    · intro q hq hno
      have hne : q ≠ o.block := fun hh => hno (by rw [hps]; simp [hh])
      exact ⟨hq, hno, by rw [b4 q (by rw [a5]; exact hne), a6 q hne]⟩
  · obtain ⟨s1, o1, sp1, tabs1, datas1, a1, a2, a3, a4, a5, a6, a7, _, a9, a10, a11⟩ :=
      set_whole_core e hslack fuel s sp o tabs datas b k hr hop hw hb hfit.size (hfit.old o rfl) hsm
        (budget_mono hbu (by omega)) (by omega)
    rw [good_stored _ hfit.good] at a7
    have hown : Owned s1 sp1 o1 (o.block :: (tabs1 ++ datas1)) := ⟨tabs1, datas1, by rw [a6], a3, by rw [a6]; exact a4⟩
    obtain ⟨s2, b1, b2, b3, b4⟩ := putVersions_ok a2 hown v h1 h2 b a5 (by rw [a6]; exact a7)
    refine ⟨s2, o1, sp1, o.block :: (tabs1 ++ datas1), ?_, ⟨b2, b3, ?_, a10, by omega⟩, a6, a11⟩
    · simp only [a1, Outcome.ok_bind, b1]
    · intro q hq hno
      rw [hps] at hno
      obtain ⟨c1, c2, c3⟩ := a9 q hq hno
      have hne : q ≠ o.block := fun hh => hno (by simp [hh])
      exact ⟨c1, c2, by rw [b4 q (by rw [a6]; exact hne), c3]⟩

theorem importFile_ok {e : Env} (hslack : 3 * 254 ≤ e.slack) {fuel : Nat} {s : St} {sp : FreeSpec.State} {o : Option Obj}
    {ps : List Nat} {b : Bytes} {v : Nat × Nat} {k : Nat} (hr : Rep e s sp) (ho : Part s sp o ps) (hfit : Fits o b)
    (h1 : v.1 < 2 ^ 32) (h2 : v.2 < 2 ^ 32) (hsm : sp.total + 2 * ((b.length + 4095) / 4096) + 1 ≤ 2 ^ 32)
    (hbu : Budget sp (2 * ps.length + 3 + k)) (hfuel : ps.length + 1 < fuel) :
    ∃ s' o' sp' ps', importFile e false fuel false s o (some b) v = .ok (some (s', o')) ∧
      Step e s sp ps b v k s' sp' o' ps' ∧ (∀ x, o = some x → o'.block = x.block) := by
  cases o with
  | some x =>
    obtain ⟨s', o', sp', ps', a1, a2, a3, _⟩ := import_old hslack (fuel := fuel) hr ho hfit h1 h2 (k := k) (by omega)
      (budget_mono hbu (by omega)) (by omega)
    refine ⟨s', o', sp', ps', a1, a2, ?_⟩
    intro y hy
    cases hy
    exact a3
  | none =>
    cases ho
    obtain ⟨s1, o1, a1, a2, a3, a4, a5, a6⟩ := newObj_ok hr (by omega)
    obtain ⟨t1, t2, t3⟩ := alloc_total sp
    obtain ⟨f1, f2, f3, f4, f5⟩ := alloc_is_fresh sp hr.sound
    have hu := alloc_used sp
    have hown : Owned s1 (FreeSpec.alloc sp).2 o1 [o1.block] := by
      refine ⟨[], [], rfl, a3, ?_⟩
      intro q hq
      simp only [List.append_nil, List.mem_singleton] at hq
      rw [hq, a4, hu]
      simp
    obtain ⟨s', o', sp', ps', b1, b2, b3, b4⟩ := import_old hslack (fuel := fuel) (k := k) (b := b) (v := v) a2 hown
      ⟨hfit.good, hfit.size, by intro x hx; cases hx; rw [a5]; omega, by intro _ x hx; cases hx; exact a5⟩ h1 h2 (by omega)
      ⟨by rw [t2]; exact hbu.1, by have := hbu.2; simp only [List.length_cons, List.length_nil] at this ⊢; omega⟩ (by simpa using hfuel)
    refine ⟨s', o', sp', ps', ?_, ⟨b2.rep, b2.full, ?_, b2.budget, ?_⟩, by intro x hx; cases hx⟩
    · unfold importFile fileFor
      simp only [a1, Outcome.ok_bind, Option.getD_some]
      exact b1
    · intro q hq _
      have hne : q ≠ o1.block := fun hh => f1 (by rw [← a4, ← hh]; exact hq)
      obtain ⟨c1, c2, c3⟩ := b2.frame q (by rw [hu]; simp [hq]) (by simpa using hne)
      exact ⟨c1, c2, by rw [c3, a6 q hq]⟩
    · omega

/-! ## The record `root` -/

theorem length_verBytes (junk : Nat → UInt8) (k : Nat) (o : Option Obj) : (verBytes junk k o).length = 8 := by
  cases o with
  | none => rfl
  | some o => rfl

theorem rd32_at (pre post : Bytes) (a off : Nat) (h : pre.length = off) (ha : a < 2 ^ 32) : rd32 (pre ++ (le32 a ++ post)) off = .ok a := by
  rw [rd32_word]
  have : pre ++ (le32 a ++ post) = splice (pre ++ (le32 0 ++ post)) off (le32 a) := by
    unfold splice
    rw [← h, List.take_left, length_le32, ← length_le32 0]
    rw [show pre ++ (le32 0 ++ post) = (pre ++ le32 0) ++ post by simp, List.drop_left' (by simp), List.append_assoc]
  rw [this]
  exact word_splice_in _ _ _ (by simp [length_le32]; omega) ha

theorem versions_at (pre post : Bytes) (a b k : Nat) (h : pre.length = 4 + 8 * k) (ha : a < 2 ^ 32) (hb : b < 2 ^ 32) :
    versions (pre ++ (le32 a ++ le32 b ++ post)) k = .ok (a, b) := by
  unfold versions
  rw [show pre ++ (le32 a ++ le32 b ++ post) = pre ++ (le32 a ++ (le32 b ++ post)) by simp, rd32_at _ _ _ _ h ha]
  rw [show pre ++ (le32 a ++ (le32 b ++ post)) = (pre ++ le32 a) ++ (le32 b ++ post) by simp,
    rd32_at _ _ _ _ (by simp [h, length_le32]; omega) hb]
  rfl

theorem rootBytes_take (junk : Nat → UInt8) (t : Files) : (rootBytes junk t).take 36 = rootBytes junk t := by
  refine List.take_of_length_le ?_
  unfold rootBytes
  simp [length_verBytes]

/-- The file of kind `k`. -/
def Files.at (t : Files) : Nat → Option Obj
  | 0 => t.data
  | 1 => t.blob
  | 2 => t.index
  | _ => t.descr

theorem root_flag (junk : Nat → UInt8) (t : Files) (k : Nat) (hk : k < 4) :
    flag (rootBytes junk t) k = .ok (t.at k).isSome := by
  have : (rootBytes junk t)[k]? = some (hasByte (t.at k)) := by
    match k, hk with
    | 0, _ => rfl
    | 1, _ => rfl
    | 2, _ => rfl
    | 3, _ => rfl
  unfold flag
  rw [this]
  cases t.at k <;> rfl

theorem root_versions (junk : Nat → UInt8) (t : Files) (k : Nat) (hk : k < 4) (o : Obj) (ho : t.at k = some o)
    (h1 : o.ver1 < 2 ^ 32) (h2 : o.ver2 < 2 ^ 32) : versions (rootBytes junk t) k = .ok (currentVersion o) := by
  have l0 := length_verBytes junk 0 t.data
  have l1 := length_verBytes junk 1 t.blob
  have l2 := length_verBytes junk 2 t.index
  have l3 := length_verBytes junk 3 t.descr
  unfold rootBytes
  match k, hk with
  | 0, _ =>
    simp only [Files.at] at ho
    rw [ho]
    simp only [List.append_assoc]
    exact versions_at _ _ _ _ 0 (by simp) h1 h2
  | 1, _ =>
    simp only [Files.at] at ho
    rw [ho]
    generalize verBytes junk 0 t.data = x at l0
    rw [show ∀ a b c d : Bytes, a ++ x ++ b ++ c ++ d = (a ++ x) ++ (b ++ (c ++ d)) by intros; simp]
    exact versions_at _ _ _ _ 1 (by simp [l0]) h1 h2
  | 2, _ =>
    simp only [Files.at] at ho
    rw [ho]
    generalize verBytes junk 0 t.data = x at l0
    generalize verBytes junk 1 t.blob = y at l1
    rw [show ∀ a b c : Bytes, a ++ x ++ y ++ b ++ c = (a ++ x ++ y) ++ (b ++ c) by intros; simp]
    exact versions_at _ _ _ _ 2 (by simp [l0, l1]) h1 h2
  | 3, _ =>
    simp only [Files.at] at ho
    rw [ho]
    generalize verBytes junk 0 t.data = x at l0
    generalize verBytes junk 1 t.blob = y at l1
    generalize verBytes junk 2 t.index = z at l2
    rw [show ∀ a b : Bytes, a ++ x ++ y ++ z ++ b = (a ++ x ++ y ++ z) ++ (b ++ []) by intros; simp]
    exact versions_at _ _ _ _ 3 (by simp [l0, l1, l2]) h1 h2

/-! ## One file, if it was exported -/

/-- The number of pages of contents. -/
def need (b : Option Bytes) : Nat := ((b.getD []).length + 4095) / 4096

structure Came (e : Env) (s : St) (sp : FreeSpec.State) (o : Option Obj) (ps : List Nat) (x : Option Obj) (b : Option Bytes) (k : Nat)
    (s' : St) (sp' : FreeSpec.State) (o' : Option Obj) (ps' : List Nat) : Prop where
  rep : Rep e s' sp'
  part : Part s' sp' o' ps'
  kept : x = none → o' = o ∧ ps' = ps ∧ s' = s ∧ sp' = sp
  full : ∀ y c, x = some y → b = some c → ∃ z, o' = some z ∧ Full s' sp' z ps' c (currentVersion y)
  same : ∀ y, o = some y → ∃ z, o' = some z ∧ z.block = y.block
  frame : ∀ q ∈ sp.used, q ∉ ps → q ∈ sp'.used ∧ q ∉ ps' ∧ s'.pages[q]? = s.pages[q]?
  budget : Budget sp' k
  total : sp'.total ≤ sp.total + 2 * need b + 1

theorem importIf_ok {e : Env} (hslack : 3 * 254 ≤ e.slack) {fuel : Nat} {s : St} {sp : FreeSpec.State} {o : Option Obj}
    {ps : List Nat} {k : Nat} (hr : Rep e s sp) (ho : Part s sp o ps) (junk : Nat → UInt8) (t : Files) (n : Nat) (hn : n < 4)
    (b : Option Bytes) (hb : ∀ y, t.at n = some y → ∃ c, b = some c ∧ Fits o c ∧ y.ver1 < 2 ^ 32 ∧ y.ver2 < 2 ^ 32)
    (hsm : sp.total + 2 * need b + 1 ≤ 2 ^ 32) (hbu : Budget sp (2 * ps.length + 3 + k)) (hfuel : ps.length + 1 < fuel) :
    ∃ s' o' sp' ps', importIf e false fuel false (rootBytes junk t) n b s o = .ok (some (s', o')) ∧
      Came e s sp o ps (t.at n) b k s' sp' o' ps' := by
  unfold importIf
  rw [root_flag _ _ _ hn]
  cases ht : t.at n with
  | none =>
    refine ⟨s, o, sp, ps, ?_, hr, ho, fun _ => ⟨rfl, rfl, rfl, rfl⟩, (fun y c hy => by cases hy), fun y hy => ⟨y, hy, rfl⟩,
      fun q hq hno => ⟨hq, hno, rfl⟩, budget_mono hbu (by omega), by omega⟩
    rfl
  | some y =>
    obtain ⟨c, rfl, hfit, h1, h2⟩ := hb y ht
    obtain ⟨s', o', sp', ps', a1, a2, a3⟩ := importFile_ok hslack (fuel := fuel) hr ho hfit (v := currentVersion y) h1 h2 hsm hbu hfuel
    refine ⟨s', some o', sp', ps', ?_, a2.rep, a2.full.owned, (fun h => by cases h), ?_, ?_, a2.frame, a2.budget, a2.total⟩
    · simp only [Option.isSome_some, Outcome.ok_bind, if_true, root_versions junk t n hn y ht h1 h2, a1]
    · intro y' c' hy hc
      cases hy
      cases hc
      exact ⟨o', rfl, a2.full⟩
    · intro z hz
      exact ⟨o', rfl, a3 z hz⟩

/-! ## Three files -/

structure Three (e : Env) (s : St) (sp : FreeSpec.State) (x t : Files) (f : Folder) (pd pb pi : List Nat) (k : Nat) (s' : St)
    (sp' : FreeSpec.State) (t' : Files) (ps' : List Nat) : Prop where
  rep : Rep e s' sp'
  budget : Budget sp' k
  total : sp'.total ≤ sp.total + 2 * (need f.data + need f.blob + need f.index) + 3
  frame : ∀ q ∈ sp.used, q ∉ pd ++ pb ++ pi → q ∈ sp'.used ∧ q ∉ ps' ∧ s'.pages[q]? = s.pages[q]?
  keep : ∀ q ∈ sp.used, (q ∈ pd → x.data = none) → (q ∈ pb → x.blob = none) → (q ∈ pi → x.index = none) →
    q ∈ sp'.used ∧ s'.pages[q]? = s.pages[q]?
  usedData : ∀ z, t'.data = some z → z.block ∈ sp'.used
  usedBlob : ∀ z, t'.blob = some z → z.block ∈ sp'.used
  usedIndex : ∀ z, t'.index = some z → z.block ∈ sp'.used
  data : ∀ y c, x.data = some y → f.data = some c → ∃ z p, t'.data = some z ∧ Full s' sp' z p c (currentVersion y) ∧ ∀ q ∈ p, q ∈ ps'
  blob : ∀ y c, x.blob = some y → f.blob = some c → ∃ z p, t'.blob = some z ∧ Full s' sp' z p c (currentVersion y) ∧ ∀ q ∈ p, q ∈ ps'
  index : ∀ y c, x.index = some y → f.index = some c → ∃ z p, t'.index = some z ∧ Full s' sp' z p c (currentVersion y) ∧ ∀ q ∈ p, q ∈ ps'
  sameData : ∀ y, t.data = some y → ∃ z, t'.data = some z ∧ z.block = y.block
  sameBlob : ∀ y, t.blob = some y → ∃ z, t'.blob = some z ∧ z.block = y.block
  sameIndex : ∀ y, t.index = some y → ∃ z, t'.index = some z ∧ z.block = y.block
  keptData : x.data = none → t'.data = t.data
  keptBlob : x.blob = none → t'.blob = t.blob
  keptIndex : x.index = none → t'.index = t.index
  descr : t'.descr = t.descr

/-- What the folder must offer for a file that was exported. -/
def Offers (x o : Option Obj) (b : Option Bytes) : Prop :=
  ∀ y, x = some y → ∃ c, b = some c ∧ Fits o c ∧ y.ver1 < 2 ^ 32 ∧ y.ver2 < 2 ^ 32

theorem import_three {e : Env} (hslack : 3 * 254 ≤ e.slack) {fuel : Nat} {s : St} {sp : FreeSpec.State} {x t : Files} {f : Folder}
    {pd pb pi : List Nat} {k : Nat} (hr : Rep e s sp) (hd : Part s sp t.data pd) (hb : Part s sp t.blob pb) (hi : Part s sp t.index pi)
    (dis : (pd ++ pb ++ pi).Nodup) (junk : Nat → UInt8) (od : Offers x.data t.data f.data) (ob : Offers x.blob t.blob f.blob)
    (oi : Offers x.index t.index f.index)
    (hsm : sp.total + 2 * (need f.data + need f.blob + need f.index) + 3 ≤ 2 ^ 32)
    (hbu : Budget sp (2 * (pd ++ pb ++ pi).length + 9 + k)) (hfuel : (pd ++ pb ++ pi).length + 1 < fuel) :
    ∃ s1 s2 s' data blob index sp' ps', importIf e false fuel false (rootBytes junk x) 0 f.data s t.data = .ok (some (s1, data)) ∧
      importIf e false fuel false (rootBytes junk x) 1 f.blob s1 t.blob = .ok (some (s2, blob)) ∧
      importIf e false fuel false (rootBytes junk x) 2 f.index s2 t.index = .ok (some (s', index)) ∧
      Three e s sp x t f pd pb pi k s' sp' ⟨data, blob, index, t.descr⟩ ps' := by
  simp only [List.length_append] at hbu hfuel
  rw [List.nodup_append, List.nodup_append] at dis
  obtain ⟨⟨_, _, n1⟩, _, n2⟩ := dis
  have dis1 : ∀ q ∈ pb, q ∉ pd := fun q h1 h2 => n1 q h2 q h1 rfl
  have dis2 : ∀ q ∈ pi, q ∉ pd := fun q h1 h2 => n2 q (by simp [h2]) q h1 rfl
  have dis3 : ∀ q ∈ pi, q ∉ pb := fun q h1 h2 => n2 q (by simp [h2]) q h1 rfl
  obtain ⟨s1, data, sp1, pd1, a1, c1⟩ := importIf_ok hslack (fuel := fuel) (k := 2 * pb.length + 3 + (2 * pi.length + 3 + k)) hr hd junk x 0
    (by decide) f.data od (by omega) (budget_mono hbu (by omega)) (by omega)
  have hb1 : Part s1 sp1 t.blob pb := part_frame hb (fun q hq => by
    obtain ⟨u, _, w⟩ := c1.frame q (part_used hb q hq) (dis1 q hq); exact ⟨u, w⟩)
  have hi1 : Part s1 sp1 t.index pi := part_frame hi (fun q hq => by
    obtain ⟨u, _, w⟩ := c1.frame q (part_used hi q hq) (dis2 q hq); exact ⟨u, w⟩)
  have t1 := c1.total
  obtain ⟨s2, blob, sp2, pb2, a2, c2⟩ := importIf_ok hslack (fuel := fuel) (k := 2 * pi.length + 3 + k) c1.rep hb1 junk x 1
    (by decide) f.blob ob (by omega) c1.budget (by omega)
  have hi2 : Part s2 sp2 t.index pi := part_frame hi1 (fun q hq => by
    obtain ⟨u, _, w⟩ := c2.frame q (part_used hi1 q hq) (dis3 q hq); exact ⟨u, w⟩)
  have t2 := c2.total
  obtain ⟨s3, index, sp3, pi3, a3, c3⟩ := importIf_ok hslack (fuel := fuel) (k := k) c2.rep hi2 junk x 2
    (by decide) f.index oi (by omega) c2.budget (by omega)
  have t3 := c3.total
  -- the pages of the first file are not those of the others
  have f1 : ∀ q ∈ pb, q ∉ pd1 := fun q hq => (c1.frame q (part_used hb q hq) (dis1 q hq)).2.1
  have f2 : ∀ q ∈ pi, q ∉ pd1 := fun q hq => (c1.frame q (part_used hi q hq) (dis2 q hq)).2.1
  have f3 : ∀ q ∈ pi, q ∉ pb2 := fun q hq => (c2.frame q (part_used hi1 q hq) (dis3 q hq)).2.1
  have g1 : ∀ q ∈ pd1, q ∈ sp2.used ∧ q ∉ pb2 ∧ s2.pages[q]? = s1.pages[q]? := fun q hq =>
    c2.frame q (part_used c1.part q hq) (fun h => f1 q h hq)
  have g2 : ∀ q ∈ pd1, q ∈ sp3.used ∧ q ∉ pi3 ∧ s3.pages[q]? = s2.pages[q]? := fun q hq =>
    c3.frame q (g1 q hq).1 (fun h => f2 q h hq)
  have g3 : ∀ q ∈ pb2, q ∈ sp3.used ∧ q ∉ pi3 ∧ s3.pages[q]? = s2.pages[q]? := fun q hq =>
    c3.frame q (part_used c2.part q hq) (fun h => f3 q h hq)
  refine ⟨s1, s2, s3, data, blob, index, sp3, pd1 ++ pb2 ++ pi3, a1, a2, a3, c3.rep, c3.budget, by omega, ?_, ?_, ?_, ?_, ?_, ?_, ?_, ?_,
    c1.same, c2.same, c3.same, fun h => (c1.kept h).1, fun h => (c2.kept h).1, fun h => (c3.kept h).1, rfl⟩
  · intro q hq hno
    simp only [List.mem_append, not_or] at hno
    obtain ⟨u1, v1, w1⟩ := c1.frame q hq hno.1.1
    obtain ⟨u2, v2, w2⟩ := c2.frame q u1 hno.1.2
    obtain ⟨u3, v3, w3⟩ := c3.frame q u2 hno.2
    exact ⟨u3, by simp [v1, v2, v3], by rw [w3, w2, w1]⟩
  · intro q hq kd kb ki
    have w1 : q ∈ sp1.used ∧ s1.pages[q]? = s.pages[q]? := by
      by_cases hm : q ∈ pd
      · obtain ⟨_, _, r1, r2⟩ := c1.kept (kd hm)
        exact ⟨by rw [r2]; exact hq, by rw [r1]⟩
      · obtain ⟨u, _, w⟩ := c1.frame q hq hm
        exact ⟨u, w⟩
    have w2 : q ∈ sp2.used ∧ s2.pages[q]? = s1.pages[q]? := by
      by_cases hm : q ∈ pb
      · obtain ⟨_, _, r1, r2⟩ := c2.kept (kb hm)
        exact ⟨by rw [r2]; exact w1.1, by rw [r1]⟩
      · obtain ⟨u, _, w⟩ := c2.frame q w1.1 hm
        exact ⟨u, w⟩
    have w3 : q ∈ sp3.used ∧ s3.pages[q]? = s2.pages[q]? := by
      by_cases hm : q ∈ pi
      · obtain ⟨_, _, r1, r2⟩ := c3.kept (ki hm)
        exact ⟨by rw [r2]; exact w2.1, by rw [r1]⟩
      · obtain ⟨u, _, w⟩ := c3.frame q w2.1 hm
        exact ⟨u, w⟩
    exact ⟨w3.1, by rw [w3.2, w2.2, w1.2]⟩
  · rintro z rfl
    obtain ⟨tabs, datas, hps, _⟩ := c1.part
    exact (g2 z.block (by rw [hps]; simp)).1
  · rintro z rfl
    obtain ⟨tabs, datas, hps, _⟩ := c2.part
    exact (g3 z.block (by rw [hps]; simp)).1
  · rintro z rfl
    obtain ⟨tabs, datas, hps, _, hw⟩ := c3.part
    exact hw _ (by simp)
  · intro y c hy hc
    obtain ⟨z, hz, hf⟩ := c1.full y c hy hc
    refine ⟨z, pd1, hz, full_frame (full_frame hf (fun q hq => ⟨(g1 q hq).1, (g1 q hq).2.2⟩))
      (fun q hq => ⟨(g2 q hq).1, (g2 q hq).2.2⟩), fun q hq => by simp [hq]⟩
  · intro y c hy hc
    obtain ⟨z, hz, hf⟩ := c2.full y c hy hc
    exact ⟨z, pb2, hz, full_frame hf (fun q hq => ⟨(g3 q hq).1, (g3 q hq).2.2⟩), fun q hq => by simp [hq]⟩
  · intro y c hy hc
    obtain ⟨z, hz, hf⟩ := c3.full y c hy hc
    exact ⟨z, pi3, hz, hf, fun q hq => by simp [hq]⟩

/-! ## The description -/

open Unicode.Spec in
theorem text_at (cps : List Nat) (hc : ∀ c ∈ cps, Scalar c) (a b : Bytes) (x : Nat) (hx : x < 128)
    (h : utf8Text cps = a ++ UInt8.ofNat x :: b) :
    ∃ a' b', cps = a' ++ x :: b' ∧ a = utf8Text a' ∧ b = utf8Text b' := by
  induction cps generalizing a with
  | nil => simp [utf8Text] at h
  | cons c cs ih =>
    have e1 : utf8Text (c :: cs) = utf8 c ++ utf8Text cs := rfl
    rw [e1] at h
    have hcs := fun y hy => hc y (List.mem_cons_of_mem _ hy)
    rcases List.append_eq_append_iff.mp h with ⟨l, h1, h2⟩ | ⟨l, h1, h2⟩
    · obtain ⟨a', b', r1, r2, r3⟩ := ih hcs l h2
      exact ⟨c :: a', b', by rw [r1]; rfl, by rw [h1, r2]; rfl, r3⟩
    · cases l with
      | nil =>
        obtain ⟨a', b', r1, r2, r3⟩ := ih hcs [] h2.symm
        refine ⟨c :: a', b', by rw [r1]; rfl, ?_, r3⟩
        rw [List.append_nil] at h1
        rw [show utf8Text (c :: a') = utf8 c ++ utf8Text a' from rfl, ← r2, ← h1, List.append_nil]
      | cons y l =>
        rw [List.cons_append, List.cons.injEq] at h2
        obtain ⟨rfl, rfl⟩ := h2
        have hlt : (UInt8.ofNat x).toNat = x := Unicode.toNat_ofNat_lt x (by omega)
        by_cases hs : c < 128
        · rw [show utf8 c = [UInt8.ofNat c] by unfold utf8; rw [if_pos (by omega)]] at h1
          cases a with
          | nil =>
            simp only [List.nil_append, List.cons.injEq] at h1
            have : c = x := by
              have h3 := congrArg UInt8.toNat h1.1
              rwa [hlt, Unicode.toNat_ofNat_lt c (by omega)] at h3
            subst this
            exact ⟨[], cs, rfl, rfl, by rw [← h1.2]; rfl⟩
          | cons z a => simp at h1
        · exfalso
          have hm : UInt8.ofNat x ∈ utf8 c := by rw [h1]; simp
          have hb : c < 0x110000 := by have := hc c (by simp); unfold Scalar at this; omega
          have key : ∀ n, 128 ≤ n → n < 256 → UInt8.ofNat x ≠ UInt8.ofNat n := by
            intro n h4 h5 h6
            have h7 := congrArg UInt8.toNat h6
            rw [hlt, Unicode.toNat_ofNat_lt n h5] at h7
            omega
          unfold utf8 at hm
          rw [if_neg (by omega)] at hm
          split at hm
          · simp only [List.mem_cons, List.not_mem_nil, or_false] at hm
            rcases hm with hm | hm <;> exact key _ (by omega) (by omega) hm
          · split at hm
            · simp only [List.mem_cons, List.not_mem_nil, or_false] at hm
              rcases hm with hm | hm | hm <;> exact key _ (by omega) (by omega) hm
            · simp only [List.mem_cons, List.not_mem_nil, or_false] at hm
              rcases hm with hm | hm | hm | hm <;> exact key _ (by omega) (by omega) hm

open Unicode.Spec in
theorem utf8Text_ascii (m : List Nat) (hm : ∀ c ∈ m, c < 128) : utf8Text m = m.map UInt8.ofNat := by
  induction m with
  | nil => rfl
  | cons c m ih =>
    rw [show utf8Text (c :: m) = utf8 c ++ utf8Text m from rfl, ih (fun y hy => hm y (by simp [hy]))]
    have := hm c (by simp)
    unfold utf8
    rw [if_pos (by omega)]
    rfl

open Unicode.Spec in
theorem utf8Text_append (a b : List Nat) : utf8Text (a ++ b) = utf8Text a ++ utf8Text b := by
  unfold utf8Text; simp

open Unicode.Spec in
theorem text_find (m : List Nat) (hm : ∀ c ∈ m, c < 128) (cps : List Nat) (hc : ∀ c ∈ cps, Scalar c) (a b : Bytes) (hne : m ≠ [])
    (h : utf8Text cps = a ++ (m.map UInt8.ofNat ++ b)) : ∃ a' b', cps = a' ++ (m ++ b') ∧ a = utf8Text a' ∧ b = utf8Text b' := by
  induction m generalizing cps a with
  | nil => exact absurd rfl hne
  | cons x m ih =>
    obtain ⟨a', b', r1, r2, r3⟩ := text_at cps hc a (m.map UInt8.ofNat ++ b) x (hm x (by simp)) (by simpa using h)
    by_cases h0 : m = []
    · subst h0
      exact ⟨a', b', by simpa using r1, r2, by simpa using r3⟩
    · obtain ⟨a2, b2, s1, s2, s3⟩ := ih (fun y hy => hm y (by simp [hy])) b' (fun y hy => hc y (by rw [r1]; simp [hy])) [] h0 (by rw [← r3]; rfl)
      have : a2 = [] := by
        cases a2 with
        | nil => rfl
        | cons y a2 =>
          exfalso
          obtain ⟨w, r, hw, _⟩ := Unicode.utf8_head_tail y (hc y (by rw [r1, s1]; simp))
          rw [show utf8Text (y :: a2) = utf8 y ++ utf8Text a2 from rfl, hw] at s2
          cases s2
      subst this
      exact ⟨a', b2, by rw [r1, s1]; simp, r2, s3⟩

/-- The model's search finds the first occurrence. -/
theorem cut_first (mark : Bytes) (hm : mark ≠ []) (pre post : Bytes)
    (hf : ∀ a b, pre ++ (mark ++ post) = a ++ (mark ++ b) → pre.length ≤ a.length) :
    cut mark (pre ++ (mark ++ post)) = some pre := by
  induction pre with
  | nil =>
    cases mark with
    | nil => exact absurd rfl hm
    | cons x m =>
      rw [List.nil_append, List.cons_append, cut, if_pos]
      exact List.isPrefixOf_iff_prefix.mpr ⟨post, rfl⟩
  | cons c pre ih =>
    rw [List.cons_append, cut, if_neg, ih]
    · rfl
    · intro a b hab
      have := hf (c :: a) b (by rw [List.cons_append, hab]; rfl)
      simpa using this
    · intro hp
      obtain ⟨t, ht⟩ := List.isPrefixOf_iff_prefix.mp hp
      have := hf [] t (by rw [List.nil_append, ht]; rfl)
      simp at this

theorem digit_lt {n : Nat} {c : Char} (h : c ∈ Nat.toDigits 10 n) : c.toNat < 128 := by
  have h1 := Nat.isDigit_of_mem_toDigits (by decide) (by decide) h
  simp only [Char.isDigit, Bool.and_eq_true, decide_eq_true_eq] at h1
  have h2 := h1.2
  have : c.val.toNat ≤ 57 := h2
  unfold Char.toNat
  omega

/-- The section written by the model is the section of the specification. -/
theorem filesText_section (d b i : Option Obj) :
    filesText d b i = (filesSection (num d) (num b) (num i)).map UInt8.ofNat ∧
    (∀ c ∈ filesSection (num d) (num b) (num i), c < 128) := by
  have hn : ∀ o : Option Obj, numberOf o = (ascii (toString (num o))).map UInt8.ofNat ∧ ∀ c ∈ ascii (toString (num o)), c < 128 := by
    intro o
    have hc : ∀ n : Nat, ∀ c ∈ ascii (toString n), c < 128 := by
      intro n c hc
      unfold ascii at hc
      obtain ⟨x, hx, rfl⟩ := List.mem_map.mp hc
      have : x ∈ Nat.toDigits 10 n := by rwa [← Nat.toList_repr]
      exact digit_lt this
    refine ⟨?_, hc _⟩
    cases o with
    | none => rfl
    | some o =>
      show decimal o.block = _
      unfold decimal ascii
      rw [show (toString (num (some o))).toList = Nat.toDigits 10 o.block from Nat.toList_repr, List.map_map]
      rfl
  obtain ⟨d1, d2⟩ := hn d
  obtain ⟨b1, b2⟩ := hn b
  obtain ⟨i1, i2⟩ := hn i
  have hs : filesSection (num d) (num b) (num i) = ascii "{\"Files\"," ++ ascii (toString (num d)) ++ ascii "," ++
      ascii (toString (num b)) ++ ascii "," ++ ascii (toString (num i)) ++ ascii "}\n}" := by
    unfold filesSection ascii
    simp only [String.toList_append, List.map_append]
  rw [hs]
  constructor
  · unfold filesText
    rw [d1, b1, i1]
    simp only [List.map_append]
    rfl
  · intro c hc
    simp only [List.mem_append] at hc
    have k1 : ∀ c ∈ ascii "{\"Files\",", c < 128 := by decide
    have k2 : ∀ c ∈ ascii ",", c < 128 := by decide
    have k3 : ∀ c ∈ ascii "}\n}", c < 128 := by decide
    rcases hc with (((((h | h) | h) | h) | h) | h) | h
    · exact k1 c h
    · exact d2 c h
    · exact k2 c h
    · exact b2 c h
    · exact k2 c h
    · exact i2 c h
    · exact k3 c h

open Unicode.Spec in
theorem describe_ok (text pre : List Nat) (hc : ∀ c ∈ text, Scalar c) (hf : FirstAt (ascii "{\"Files\",") text pre) (d b i : Option Obj) :
    describe (utf16Text text) d b i = .ok (utf16Text (pre ++ filesSection (num d) (num b) (num i))) := by
  obtain ⟨⟨post, hpost⟩, hfirst⟩ := hf
  obtain ⟨s1, s2⟩ := filesText_section d b i
  have hm : filesMark = (ascii "{\"Files\",").map UInt8.ofNat := by decide
  have ha : ∀ c ∈ ascii "{\"Files\",", c < 128 := by decide
  have hne : ascii "{\"Files\"," ≠ [] := by decide
  have h1 := Unicode.utf16_to_utf8 text hc []
  simp only [List.nil_append, List.length_nil] at h1
  have ht : utf8Text text = utf8Text pre ++ (filesMark ++ utf8Text post) := by
    rw [hpost, utf8Text_append, utf8Text_append, utf8Text_ascii _ ha, hm]
  have h2 : cut filesMark (utf8Text text) = some (utf8Text pre) := by
    rw [ht]
    refine cut_first _ (by decide) _ _ ?_
    intro a b' hab
    rw [← ht, hm] at hab
    obtain ⟨a', b2, r1, r2, r3⟩ := text_find _ ha text hc a b' hne hab
    have hl := hfirst a' b2 r1
    have hp : pre <+: a' := by
      rw [hpost] at r1
      rcases List.append_eq_append_iff.mp r1 with ⟨l, h3, _⟩ | ⟨l, h3, _⟩
      · exact ⟨l, h3.symm⟩
      · have hl' := congrArg List.length h3
        rw [List.length_append] at hl'
        have : l = [] := List.length_eq_zero_iff.mp (by omega)
        rw [this, List.append_nil] at h3
        exact ⟨[], by rw [h3, List.append_nil]⟩
    obtain ⟨l, rfl⟩ := hp
    rw [r2, utf8Text_append, List.length_append]
    omega
  have hsc : ∀ c ∈ pre ++ filesSection (num d) (num b) (num i), Scalar c := by
    intro c hcm
    rcases List.mem_append.mp hcm with h | h
    · exact hc c (by rw [hpost]; simp [h])
    · have := s2 c h
      unfold Scalar
      omega
  have h3 := Unicode.utf8_to_utf16 _ hsc
  rw [utf8Text_append, utf8Text_ascii _ s2, ← s1] at h3
  unfold describe
  simp only [h1, Outcome.ok_bind, h2, h3]

open Unicode.Spec in
theorem section_length (d b i : Nat) (h1 : d < 2 ^ 32) (h2 : b < 2 ^ 32) (h3 : i < 2 ^ 32) (pre : List Nat) :
    (utf16Text (pre ++ filesSection d b i)).length ≤ (utf16Text pre).length + 100 ∧ utf16Text (pre ++ filesSection d b i) ≠ [] := by
  have hn : ∀ n : Nat, n < 2 ^ 32 → (ascii (toString n)).length ≤ 10 := by
    intro n hn
    unfold ascii
    rw [show (toString n).toList = Nat.toDigits 10 n from Nat.toList_repr, List.length_map]
    exact (Nat.length_toDigits_le_iff (by decide) (by decide)).mpr (by omega)
  have hs : filesSection d b i = ascii "{\"Files\"," ++ ascii (toString d) ++ ascii "," ++
      ascii (toString b) ++ ascii "," ++ ascii (toString i) ++ ascii "}\n}" := by
    unfold filesSection ascii
    simp only [String.toList_append, List.map_append]
  have hl : (filesSection d b i).length ≤ 44 := by
    rw [hs]
    simp only [List.length_append]
    have := hn d h1
    have := hn b h2
    have := hn i h3
    have : (ascii "{\"Files\",").length = 9 := by decide
    have : (ascii ",").length = 1 := by decide
    have : (ascii "}\n}").length = 3 := by decide
    omega
  have hpos : 0 < (filesSection d b i).length := by
    rw [hs]
    simp only [List.length_append]
    have : (ascii "{\"Files\",").length = 9 := by decide
    omega
  have hasc : ∀ m : List Nat, (∀ c ∈ m, c < 128) → (utf16Text m).length = 2 * m.length := by
    intro m hm
    induction m with
    | nil => rfl
    | cons c m ih =>
      rw [show utf16Text (c :: m) = utf16 c ++ utf16Text m from rfl, List.length_append, ih (fun y hy => hm y (by simp [hy]))]
      have := hm c (by simp)
      unfold utf16
      rw [if_pos (by omega)]
      simp [le16]
      omega
  have happ : utf16Text (pre ++ filesSection d b i) = utf16Text pre ++ utf16Text (filesSection d b i) := by
    unfold utf16Text; simp
  have h128 : ∀ c ∈ filesSection d b i, c < 128 := by
    have hob : ∀ n : Nat, n = num (some ⟨.data80, n, 0, 1, 0, 0, [], none, 0, 0, 1, 0, false⟩) := fun n => rfl
    rw [hob d, hob b, hob i]
    exact (filesText_section _ _ _).2
  have h2l := hasc _ h128
  rw [happ]
  refine ⟨by rw [List.length_append]; omega, ?_⟩
  intro h0
  have := congrArg List.length h0
  rw [List.length_append, List.length_nil] at this
  omega

open Unicode.Spec in
/-- The description, when a file was created. -/
theorem importDescr_ok {e : Env} (hslack : 3 * 254 ≤ e.slack) {fuel : Nat} {s : St} {sp : FreeSpec.State} (junk : Nat → UInt8) {x t : Files}
    {y od : Obj} {ps : List Nat} (hr : Rep e s sp) (hy : x.descr = some y) (hod : t.descr = some od) (ho : Owned s sp od ps)
    (hv1 : y.ver1 < 2 ^ 32) (hv2 : y.ver2 < 2 ^ 32) (text pre : List Nat) (hc : ∀ c ∈ text, Scalar c)
    (hf : FirstAt (ascii "{\"Files\",") text pre) (hd : num t.data < 2 ^ 32) (hb : num t.blob < 2 ^ 32) (hi : num t.index < 2 ^ 32)
    (hpre : (utf16Text pre).length ≤ 1000000) (hold : od.len ≤ 254 * (1023 * 4096)) (hsm : sp.total + 1000 ≤ 2 ^ 32)
    (hbu : Budget sp (2 * ps.length)) (hfuel : ps.length < fuel) :
    ∃ s' o' sp' ps' v, importDescr e false fuel false (rootBytes junk x) (some (utf16Text text)) true s t =
        .ok (some (s', { t with descr := some o' })) ∧ Rep e s' sp' ∧ o'.block = od.block ∧
      Full s' sp' o' ps' (utf16Text (pre ++ filesSection (num t.data) (num t.blob) (num t.index))) v ∧
      (∀ q ∈ sp.used, q ∉ ps → q ∈ sp'.used ∧ q ∉ ps' ∧ s'.pages[q]? = s.pages[q]?) := by
  obtain ⟨l1, l2⟩ := section_length _ _ _ hd hb hi pre
  have hdesc := describe_ok text pre hc hf t.data t.blob t.index
  generalize utf16Text (pre ++ filesSection (num t.data) (num t.blob) (num t.index)) = buf at *
  obtain ⟨s1, a1, a2, a3, _, a5⟩ := putVersions_all hr ho (currentVersion y) hv1 hv2
  obtain ⟨tabs, datas, hps, hop, hw⟩ := a3
  have hpl := part_length hps
  obtain ⟨s2, o2, sp2, tabs2, datas2, b1, b2, b3, b4, b5, b6, b7, _, b9, _⟩ :=
    set_whole_core e hslack fuel s1 sp od tabs datas buf 0 a2 hop hw l2 (by omega) hold (by omega) (budget_mono hbu (by omega)) (by omega)
  rw [good_stored _ (by unfold Spec.Good80; omega)] at b7
  have hu : o2.block ∈ sp2.used := b4 _ (by rw [b6]; simp)
  obtain ⟨hp, p1, p2⟩ := page_of_used b2 hu
  obtain ⟨v1, hv1'⟩ := word_some hp 12 (by omega)
  obtain ⟨v2, hv2'⟩ := word_some hp 16 (by omega)
  refine ⟨s2, o2, sp2, od.block :: (tabs2 ++ datas2), (v1, v2), ?_, b2, b6, ⟨⟨tabs2, datas2, by rw [b6], b3, by rw [b6]; exact b4⟩, b5,
    by rw [b6]; exact b7, hp, p1, hv1', hv2'⟩, ?_⟩
  · unfold importDescr
    rw [if_pos rfl, root_flag junk x 3 (by decide)]
    simp only [show x.at 3 = some y from hy, Option.isSome_some, Outcome.ok_bind, if_true, hod, fileFor,
      root_versions junk x 3 (by decide) y hy hv1 hv2, a1, Option.getD_some, hdesc, b1]
  · intro q hq hno
    have hno' := hno
    rw [hps] at hno'
    obtain ⟨c1, c2, c3⟩ := b9 q hq hno'
    exact ⟨c1, c2, by rw [c3, a5 q (fun hh => hno' (by simp [hh]))]⟩

end Verif.Object.Transfer
