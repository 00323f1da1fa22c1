import Verif.Object.ShrinkLemmas

/-! # Property theorems: changing the length of an object of format 8.0 (C25) -/

namespace Verif.Object
open Verif

/-- The object in memory is what opening the file would give, and its file is whole: the
root list in memory is the one on the header page, and there are as many data pages and
tables as the length asks for. -/
structure Opened80 (s : St) (o : Obj) (tabs datas : List Nat) : Prop where
  kind : o.kind = .data80
  blocks : o.blocks = tabs
  numblocks : o.numblocks = tabs.length
  nDatas : datas.length = (o.len + 4095) / 4096
  nTabs : tabs.length = (datas.length + 1022) / 1023
  header : ∃ hp, s.pages[o.block]? = some hp ∧ hp.take 8 = sigObj ∧ Spec.word hp 8 = some o.len
  file : Spec.File80 s.pages o.block tabs datas

theorem ceil_tabs (len : Nat) : roundUp len 0x3ff000 = ((len + 4095) / 4096 + 1022) / 1023 := by
  unfold roundUp
  split <;> omega

/-- Such an object is found again by opening the file. -/
theorem opened_reopens (s : St) (o : Obj) (tabs datas : List Nat) (h : Opened80 s o tabs datas) (hb : o.block ≠ 1)
    (hf : ∀ p ∈ s.pages, p.length = 4096) :
    ∃ o', init s.pages 4096 false o.block = .ok o' ∧ o'.len = o.len ∧ o'.blocks = o.blocks ∧
      o'.numblocks = o.numblocks ∧ o'.block = o.block ∧ o'.kind = .data80 := by
  obtain ⟨hp, h1, h2, h3⟩ := h.header
  have hl := hf hp (List.mem_of_getElem? h1)
  obtain ⟨hp0, r1, r2⟩ := h.file.root
  rw [h1] at r1; cases r1
  obtain ⟨v1, w1⟩ := word_some hp 12 (by omega)
  obtain ⟨v2, w2⟩ := word_some hp 16 (by omega)
  have hc : copyRoot hp 24 (roundUp o.len 0x3ff000) = .ok tabs := by
    rw [ceil_tabs, ← h.nDatas, ← h.nTabs]
    refine copyRoot_of_words hp _ 24 tabs rfl ?_
    intro k hk
    rw [r2 k hk, List.getElem?_eq_getElem hk]
  refine ⟨⟨.data80, o.block, o.len, 1, roundUp o.len 0x3ff000, 0, tabs, none, v1, v2, (v1 + 1) % 2 ^ 32, 0, false⟩,
    ?_, rfl, h.blocks.symm, ?_, rfl, rfl⟩
  · unfold init
    rw [(getPage_ok _ _ _).mpr h1]
    simp only [Outcome.ok_bind, if_true]
    rw [if_neg (by simp [h2])]
    rw [(rd32_word _ _ _).mpr h3, (rd32_word _ _ _).mpr w1, (rd32_word _ _ _).mpr w2]
    simp only [Outcome.ok_bind]
    rw [if_neg hb, hc]
    rfl
  · rw [h.numblocks, ceil_tabs, ← h.nDatas, ← h.nTabs]

/-- And opening a whole file gives such an object. -/
theorem init_opened (s : St) (h : Nat) (o : Obj) (tabs datas : List Nat) (hb : h ≠ 1)
    (ho : init s.pages 4096 false h = .ok o) (hf : Spec.File80 s.pages h tabs datas)
    (hd : datas.length = (o.len + 4095) / 4096) (ht : tabs.length = (datas.length + 1022) / 1023) :
    Opened80 s o tabs datas := by
  obtain ⟨hp, i1, i2, i3, i4, i5, i6, i7, i8, i9, i10, i11⟩ := init_80 s.pages 4096 h o hb ho
  obtain ⟨hp0, r1, r2⟩ := hf.root
  rw [i1] at r1; cases r1
  have hn : o.numblocks = tabs.length := by rw [i5, ceil_tabs, ← hd, ← ht]
  have hsig : hp.take 8 = sigObj := by
    unfold init at ho
    rw [(getPage_ok _ _ _).mpr i1] at ho
    simp only [Outcome.ok_bind, if_true] at ho
    split at ho
    · cases ho
    · rename_i hh
      exact Classical.not_not.mp hh
  refine ⟨i2, ?_, hn, hd, ht, ⟨hp, by rw [i8]; exact i1, hsig, i4⟩, by rw [i8]; exact hf⟩
  apply List.ext_getElem (by omega)
  intro k h1 h2
  have := i7 k (by omega)
  rw [List.getElem?_eq_getElem h1, r2 k h2] at this
  exact Option.some.inj this

/-! ## Common steps -/

theorem copyRoot_exists (p : Bytes) (off n : Nat) (h : off + 4 * n ≤ p.length) :
    ∃ ws, copyRoot p off n = .ok ws ∧ ws.length = n ∧ ∀ k, k < n → ws[k]? = Spec.word p (off + 4 * k) := by
  refine ⟨(List.range n).map (fun k => (Spec.word p (off + 4 * k)).getD 0), ?_, by simp, ?_⟩
  · refine copyRoot_of_words p n off _ (by simp) ?_
    intro k hk
    obtain ⟨v, hv⟩ := word_some p (off + 4 * k) (by omega)
    simp [hk, hv]
  · intro k hk
    obtain ⟨v, hv⟩ := word_some p (off + 4 * k) (by omega)
    simp [hk, hv]

theorem refreshRoot_ok (e : Env) (hslack : 3 * 254 ≤ e.slack) (s : St) (o : Obj) (tabs : List Nat) (hp : Bytes)
    (h1 : s.pages[o.block]? = some hp) (hl : hp.length = 4096)
    (h2 : ∀ k (hk : k < tabs.length), Spec.word hp (24 + 4 * k) = some tabs[k]) (hn : tabs.length ≤ 254) :
    refreshRoot e s o tabs.length tabs.length = .ok tabs := by
  unfold refreshRoot
  by_cases hz : tabs.length = 0
  · rw [if_pos hz, List.length_eq_zero_iff.mp hz]; rfl
  · rw [if_neg hz]
    obtain ⟨ws, w1, w2, w3⟩ := copyRoot_exists hp 24 (tabs.length * 4) (by omega)
    simp only [peekMany, h1, w1, Outcome.ok_bind]
    rw [if_neg (by omega)]
    congr 1
    rw [show tabs.length - tabs.length * 4 = 0 by omega, List.replicate_zero, List.append_nil]
    apply List.ext_getElem?
    intro k
    rcases Nat.lt_or_ge k tabs.length with hk | hk
    · rw [List.getElem?_take_of_lt hk, w3 k (by omega), h2 k hk, List.getElem?_eq_getElem hk]
    · rw [List.getElem?_eq_none (by simp; omega), List.getElem?_eq_none hk]

/-- A change of the first 24 bytes of the header page does not touch the file. -/
theorem file80_header {pages pages' : List Bytes} {h : Nat} {tabs datas : List Nat} (hf : Spec.File80 pages h tabs datas)
    {hp hp' : Bytes} (h1 : pages[h]? = some hp) (h2 : pages'[h]? = some hp') (h3 : ∀ i, 24 ≤ i → hp'[i]? = hp[i]?)
    (h4 : ∀ q ∈ tabs, pages'[q]? = pages[q]?) : Spec.File80 pages' h tabs datas := by
  obtain ⟨hp0, r1, r2⟩ := hf.root
  rw [h1] at r1; cases r1
  refine ⟨⟨hp', h2, ?_⟩, ?_, ?_, hf.distinct⟩
  · intro k hk
    rw [← r2 k hk]
    exact word_of_get _ _ _ (fun i hi _ => h3 i (by omega))
  · intro k hk
    obtain ⟨t, tp, a, b, c⟩ := hf.entry k hk
    exact ⟨t, tp, a, by rw [h4 t (List.mem_of_getElem? a)]; exact b, c⟩
  · intro k t hk
    obtain ⟨tp, a, b⟩ := hf.counts k t hk
    exact ⟨tp, by rw [h4 t (List.mem_of_getElem? hk)]; exact a, b⟩

theorem head_ne_tabs {pages : List Bytes} {h : Nat} {tabs datas : List Nat} (hf : Spec.File80 pages h tabs datas) :
    (∀ q ∈ tabs, h ≠ q) ∧ (∀ q ∈ datas, h ≠ q ∧ q ∉ tabs) := by
  have hd := hf.distinct
  rw [List.nodup_cons, List.nodup_append] at hd
  refine ⟨fun q hq x => hd.1 (by rw [x]; simp [hq]), fun q hq => ⟨fun x => hd.1 (by rw [x]; simp [hq]), ?_⟩⟩
  intro hh
  exact hd.2.2.2 q hh q hq rfl

/-- The beginning of `set_len`: the new length is stored. -/
theorem start_len (e : Env) (s : St) (sp : FreeSpec.State) (o : Obj) (tabs datas : List Nat) (newLen : Nat) (hr : Rep e s sp)
    (ho : Opened80 s o tabs datas) (hw : Within sp o.block tabs datas) (hn : newLen < 2 ^ 32) :
    ∃ s1, (touch e s o.block true).bind (fun s => poke s o.block 8 (le32 newLen)) = .ok s1 ∧ Rep e s1 sp ∧
      Spec.File80 s1.pages o.block tabs datas ∧ (∀ q, q ≠ o.block → s1.pages[q]? = s.pages[q]?) ∧
      ∃ hp, s1.pages[o.block]? = some hp ∧ hp.take 8 = sigObj ∧ Spec.word hp 8 = some newLen := by
  obtain ⟨hp, h1, h2, h3⟩ := ho.header
  have hu : o.block ∈ sp.used := hw _ (by simp)
  have hl : hp.length = 4096 := hr.full _ (List.mem_of_getElem? h1)
  obtain ⟨s1, a1, a2, a3⟩ := poke_used hr hu h1 8 (le32 newLen) (by rw [length_le32]; omega)
  have hp1 : s1.pages[o.block]? = some (splice hp 8 (le32 newLen)) := by
    rw [a3]; exact get_set_eq _ _ _ (getElem?_some_lt h1)
  have hoth : ∀ q, q ≠ o.block → s1.pages[q]? = s.pages[q]? := by
    intro q hq
    rw [a3, get_set_ne _ _ _ _ (Ne.symm hq)]
  refine ⟨s1, ?_, a2, ?_, hoth, _, hp1, ?_, word_splice_in _ _ _ (by omega) hn⟩
  · rw [touch_read e s _ (getElem?_some_lt h1)]
    exact a1
  · refine file80_header ho.file h1 hp1 ?_ ?_
    · intro i hi
      exact splice_get_out _ _ _ _ (by rw [length_le32]; omega) (by rw [length_le32]; omega)
    · intro q hq
      exact hoth q (Ne.symm ((head_ne_tabs ho.file).1 q hq))
  · rw [take_splice _ _ _ _ (by rw [length_le32]; omega) (by omega)]; exact h2

/-- The end of `set_len`: the root list in memory is refreshed and the version written. -/
theorem finish_len (e : Env) (hslack : 3 * 254 ≤ e.slack) (s : St) (sp : FreeSpec.State) (o : Obj) (tabs datas : List Nat)
    (newLen : Nat) (hr : Rep e s sp) (hk : o.kind = .data80) (hf : Spec.File80 s.pages o.block tabs datas)
    (hw : Within sp o.block tabs datas) (hd : datas.length = (newLen + 4095) / 4096)
    (ht : tabs.length = (datas.length + 1022) / 1023) (hn : tabs.length ≤ 254) (hp : Bytes)
    (h1 : s.pages[o.block]? = some hp) (h2 : hp.take 8 = sigObj) (h3 : Spec.word hp 8 = some newLen) :
    refreshRoot e s o tabs.length ((datas.length + 1022) / 1023) = .ok tabs ∧
    ∃ s' o', writeVersion e s { o with len := newLen, numblocks := tabs.length, blocks := tabs, data := none } = .ok (s', o') ∧
      Rep e s' sp ∧ Opened80 s' o' tabs datas ∧ o'.block = o.block ∧ o'.len = newLen ∧
      (∀ q, q ≠ o.block → s'.pages[q]? = s.pages[q]?) := by
  have hl : hp.length = 4096 := hr.full _ (List.mem_of_getElem? h1)
  have hu : o.block ∈ sp.used := hw _ (by simp)
  obtain ⟨hp0, r1, r2⟩ := hf.root
  rw [h1] at r1; cases r1
  refine ⟨by rw [← ht]; exact refreshRoot_ok e hslack s o tabs hp h1 hl r2 hn, ?_⟩
  obtain ⟨s', hq, hq', v1, v2, v3, v4, v5, v6, _⟩ :=
    writeVersion_ok e s { o with len := newLen, numblocks := tabs.length, blocks := tabs, data := none } 4096 (by decide)
      (getElem?_some_lt h1) hr.full
  rw [h1] at v2; cases v2
  simp only [hk, true_or, if_true] at v6
  have hoth : ∀ q, q ≠ o.block → s'.pages[q]? = s.pages[q]? := by
    intro q hq
    rw [v4, get_set_ne _ _ _ _ (Ne.symm hq)]
  have hp1 : s'.pages[o.block]? = some hq' := by rw [v4]; exact get_set_eq _ _ _ (getElem?_some_lt h1)
  refine ⟨s', _, v1, rep_set hr hu (by rw [v3]; exact hl) v5 v4, ?_, rfl, rfl, hoth⟩
  refine ⟨hk, rfl, rfl, hd, ht, ⟨hq', hp1, ?_, ?_⟩, ?_⟩
  · rw [← h2]
    apply List.ext_getElem?
    intro i
    rw [List.getElem?_take, List.getElem?_take]
    split
    · exact v6 i (by omega)
    · rfl
  · rw [← h3]
    exact word_of_get _ _ _ (fun i _ _ => v6 i (by omega))
  · refine file80_header hf h1 hp1 (fun i hi => v6 i (by omega)) ?_
    intro q hq
    exact hoth q (Ne.symm ((head_ne_tabs hf).1 q hq))

/-- Everything `set_len` does before the root list is refreshed. -/
theorem grow_core (e : Env) (fuel : Nat) (s : St) (sp : FreeSpec.State) (o : Obj)
    (tabs datas : List Nat) (newLen : Nat) (hr : Rep e s sp) (ho : Opened80 s o tabs datas) (hw : Within sp o.block tabs datas)
    (hgt : o.len < newLen) (hmax : newLen ≤ 254 * (1023 * 4096)) (hsm : sp.total + 2 * ((newLen + 4095) / 4096) ≤ 2 ^ 32) :
    ∃ s1 s2 sp2 tabs' datas' hp2, touch e s o.block true = .ok s ∧ poke s o.block 8 (le32 newLen) = .ok s1 ∧
      resize80 e fuel s1 o ((newLen + 4095) / 4096) ((o.len + 4095) / 4096) = .ok (some (s2, (tabs ++ tabs').length)) ∧
      Grown e s1 sp o.block tabs datas s2 sp2 tabs' datas' ∧ (∀ q, q ≠ o.block → s1.pages[q]? = s.pages[q]?) ∧
      (datas ++ datas').length = (newLen + 4095) / 4096 ∧
      (tabs ++ tabs').length = ((datas ++ datas').length + 1022) / 1023 ∧ (∀ q ∈ tabs' ++ datas', q ∉ sp.used) ∧
      s2.pages[o.block]? = some hp2 ∧ hp2.take 8 = sigObj ∧ Spec.word hp2 8 = some newLen := by
  obtain ⟨s1, a1, a2, a3, a4, hp1, a5, a6, a7⟩ := start_len e s sp o tabs datas newLen hr ho hw (by omega)
  have hdl := ho.nDatas
  have htl := ho.nTabs
  obtain ⟨s2, sp2, tabs', datas', b1, b2, b3, b4, b5, b6⟩ := grow80_ok e o.block ((newLen + 4095) / 4096 - datas.length) s1 sp
    tabs datas a2 a3 hw ho.nTabs (by omega) (by omega)
  obtain ⟨hp2, c1, c2⟩ := b2.header hp1 a5
  have hD : (datas ++ datas').length = (newLen + 4095) / 4096 := by rw [List.length_append, b3]; omega
  have hsig : hp2.take 8 = sigObj := by
    rw [← a6]
    apply List.ext_getElem?
    intro i
    rw [List.getElem?_take, List.getElem?_take]
    split
    · exact c2 i (by omega)
    · rfl
  have hlen2 : Spec.word hp2 8 = some newLen := by
    rw [← a7]
    exact word_of_get _ _ _ (fun i _ _ => c2 i (by omega))
  have hres : resize80 e fuel s1 o ((newLen + 4095) / 4096) ((o.len + 4095) / 4096) = .ok (some (s2, (tabs ++ tabs').length)) := by
    rw [← ho.nDatas]
    unfold resize80
    by_cases hlt : datas.length < (newLen + 4095) / 4096
    · rw [if_pos hlt]
      by_cases hz : o.numblocks ≠ 0
      · rw [if_pos hz]
        have hn := ho.numblocks
        obtain ⟨t, ht⟩ : ∃ t, tabs.getLast? = some t := by
          cases hh : tabs.getLast? with
          | some t => exact ⟨t, rfl⟩
          | none =>
            rw [List.getLast?_eq_none_iff] at hh
            rw [hh] at hn
            exact absurd hn hz
        have ht' := ht
        rw [List.getLast?_eq_getElem?] at ht'
        obtain ⟨hp0, r1, r2⟩ := a3.root
        have hlt' := getElem?_some_lt ht'
        have hpk : peek s1 o.block (24 + 4 * (o.numblocks - 1)) = .ok t := by
          rw [hn]
          refine peek_of_word r1 ?_
          rw [r2 _ hlt', ← List.getElem?_eq_getElem hlt']
          exact ht'
        have htu : t < s1.pages.length := (used_facts a2 (hw t (by
          have := List.mem_of_getElem? ht'
          simp [this]))).1
        simp only [hpk, Outcome.ok_bind, touch_read e s1 t htu]
        rw [ht] at b1
        rw [hn, b1]
        rfl
      · rw [if_neg hz]
        have hn : tabs.length = 0 := by rw [← ho.numblocks]; omega
        have : tabs = [] := List.length_eq_zero_iff.mp hn
        rw [this] at b1
        simp only [List.getLast?_nil, List.length_nil] at b1
        rw [b1, this]
        rfl
    · rw [if_neg hlt, if_neg (by omega)]
      have h0 : datas'.length = 0 := by rw [b3]; omega
      have h1 : (newLen + 4095) / 4096 - datas.length = 0 := by omega
      rw [h1] at b1
      simp only [grow80] at b1
      simp only [Outcome.ok.injEq, Prod.mk.injEq] at b1
      rw [ho.numblocks, ← b1.2, b1.1]
  have hbind : (do let s ← touch e s o.block true
                   poke s o.block 8 (le32 newLen)) = .ok s1 := a1
  have htr : touch e s o.block true = .ok s := by
    obtain ⟨hp, h1, _⟩ := ho.header
    exact touch_read e s _ (getElem?_some_lt h1)
  rw [htr] at hbind
  simp only [Outcome.ok_bind] at hbind
  exact ⟨s1, s2, sp2, tabs', datas', hp2, htr, hbind, hres, b2, a4, hD, b4, b5, c1, hsig, hlen2⟩

/-- **C25, growing, format 8.0.** Any file grows to any length up to the capacity of 254
tables: the call succeeds, the object stays whole with the new length, all data pages it
had are still its first data pages, the pages it got were not in use, and every page in
use other than its header and tables keeps its contents. Assumes that writing past the
end of the root vector does no harm (`slack`). -/
theorem set_len_grow_80_partial (e : Env) (hslack : 3 * 254 ≤ e.slack) (fuel : Nat) (s : St) (sp : FreeSpec.State) (o : Obj)
    (tabs datas : List Nat) (newLen : Nat) (hr : Rep e s sp) (ho : Opened80 s o tabs datas) (hw : Within sp o.block tabs datas)
    (hgt : o.len < newLen) (hmax : newLen ≤ 254 * (1023 * 4096)) (hsm : sp.total + 2 * ((newLen + 4095) / 4096) ≤ 2 ^ 32) :
    ∃ s' o' sp' tabs' datas', setLen80 e fuel s o newLen = .ok (some (s', o')) ∧ Rep e s' sp' ∧
      Opened80 s' o' (tabs ++ tabs') (datas ++ datas') ∧ o'.len = newLen ∧ o'.block = o.block ∧
      Within sp' o.block (tabs ++ tabs') (datas ++ datas') ∧ sp'.used.Perm (tabs' ++ datas' ++ sp.used) ∧
      (∀ q ∈ tabs' ++ datas', q ∉ sp.used) ∧
      (∀ q ∈ sp.used, q ≠ o.block → q ∉ tabs → s'.pages[q]? = s.pages[q]?) ∧ sp'.own = sp.own ∧
      sp'.free.length ≤ sp.free.length := by
  obtain ⟨s1, s2, sp2, tabs', datas', hp2, htr, hbind, hres, b2, a4, hD, b4, b5, c1, hsig, hlen2⟩ :=
    grow_core e fuel s sp o tabs datas newLen hr ho hw hgt hmax hsm
  obtain ⟨d1, s3, o3, d2, d3, d4, d5, d6, d7⟩ := finish_len e hslack s2 sp2 o (tabs ++ tabs') (datas ++ datas') newLen b2.rep ho.kind
    b2.file b2.within hD b4 (by rw [b4, hD]; omega) hp2 c1 hsig hlen2
  refine ⟨s3, o3, sp2, tabs', datas', ?_, d3, d4, d6, d5, b2.within, b2.used, b5, ?_, b2.own, b2.free⟩
  · unfold setLen80
    rw [if_neg (by omega)]
    simp only [htr, Outcome.ok_bind, hbind, hres]
    rw [← hD, d1]
    simp only [Outcome.ok_bind, d2]
  · intro q hq h1 h2
    rw [d7 q h1, b2.others q hq h1 h2]
    exact a4 q h1

/-- **C25, shrinking, format 8.0.** Any file shrinks to any smaller length but 0: the call
succeeds, the object stays whole with the new length, its data pages are the first of
those it had, exactly the other pages are released, and every page still in use other
than its header and tables keeps its contents. -/
theorem set_len_shrink_80_partial (e : Env) (hslack : 3 * 254 ≤ e.slack) (fuel : Nat) (s : St) (sp : FreeSpec.State) (o : Obj)
    (tabs datas : List Nat) (newLen k : Nat) (hr : Rep e s sp) (ho : Opened80 s o tabs datas) (hw : Within sp o.block tabs datas)
    (hlt : newLen < o.len) (hpos : 0 < newLen) (hmax : o.len ≤ 254 * (1023 * 4096))
    (hb : Budget sp (2 * (datas.length - (newLen + 4095) / 4096) + k)) (hfuel : datas.length < fuel) :
    ∃ s' o' sp' tabs' t1 datas' d1, setLen80 e fuel s o newLen = .ok (some (s', o')) ∧ Rep e s' sp' ∧
      tabs = tabs' ++ t1 ∧ datas = datas' ++ d1 ∧ Opened80 s' o' tabs' datas' ∧ o'.len = newLen ∧ o'.block = o.block ∧
      Within sp' o.block tabs' datas' ∧ sp.used.Perm (t1 ++ d1 ++ sp'.used) ∧
      (∀ q ∈ sp'.used, q ≠ o.block → q ∉ tabs' → s'.pages[q]? = s.pages[q]?) ∧ Budget sp' k ∧ sp'.total = sp.total := by
  obtain ⟨s1, a1, a2, a3, a4, hp1, a5, a6, a7⟩ := start_len e s sp o tabs datas newLen hr ho hw (by omega)
  have hdl := ho.nDatas
  have htl := ho.nTabs
  generalize hn : (newLen + 4095) / 4096 = n at *
  have hdat : datas = datas.take n ++ datas.drop n := (List.take_append_drop n datas).symm
  have hl1 : (datas.take n).length = n := by rw [List.length_take]; omega
  have hl2 : (datas.drop n).length = datas.length - n := by rw [List.length_drop]
  obtain ⟨t, ht⟩ : ∃ t, tabs.getLast? = some t := by
    cases hh : tabs.getLast? with
    | some t => exact ⟨t, rfl⟩
    | none =>
      rw [List.getLast?_eq_none_iff] at hh
      rw [hh] at htl
      simp at htl
      omega
  obtain ⟨s2, sp2, tabs', t1, b1, b2, b3, b4⟩ := shrink80_ok e hslack o.block (datas.take n) (by omega) (datas.drop n) fuel s1 sp
    tabs t k a2 (by rw [← hdat]; exact a3) (by rw [← hdat]; exact hw) (by rw [← hdat]; exact htl) (by omega)
    (by rw [← hdat]; omega) ht (by rw [hl2]; exact hb) (by omega)
  rw [← hdat, hl1] at b3
  obtain ⟨hp2, c1, c2⟩ := b4.header hp1 a5
  have hsig : hp2.take 8 = sigObj := by
    rw [← a6]
    apply List.ext_getElem?
    intro i
    rw [List.getElem?_take, List.getElem?_take]
    split
    · exact c2 i (by omega)
    · rfl
  have hlen2 : Spec.word hp2 8 = some newLen := by
    rw [← a7]
    exact word_of_get _ _ _ (fun i _ _ => c2 i (by omega))
  obtain ⟨d1, s3, o3, d2, d3, d4, d5, d6, d7⟩ := finish_len e hslack s2 sp2 o tabs' (datas.take n) newLen b4.rep ho.kind
    b4.file b4.within (by rw [hl1, hn]) b2 (by rw [b2, hl1]; omega) hp2 c1 hsig hlen2
  have hres : resize80 e fuel s1 o n datas.length = .ok (some (s2, tabs'.length)) := by
    have hnb := ho.numblocks
    have ht' := ht
    rw [List.getLast?_eq_getElem?] at ht'
    have hlt' := getElem?_some_lt ht'
    unfold resize80
    rw [if_neg (by omega)]
    by_cases hc : n < datas.length
    · rw [if_pos hc, if_neg (by omega)]
      obtain ⟨hp0, r1, r2⟩ := a3.root
      have hpk : peek s1 o.block (24 + 4 * (o.numblocks - 1)) = .ok t := by
        rw [hnb]
        refine peek_of_word r1 ?_
        rw [r2 _ hlt', ← List.getElem?_eq_getElem hlt']
        exact ht'
      have htu : t < s1.pages.length := (used_facts a2 (hw t (by
        have := List.mem_of_getElem? ht'
        simp [this]))).1
      simp only [hpk, Outcome.ok_bind, touch_read e s1 t htu]
      rw [hnb]
      exact b3
    · rw [if_neg hc]
      obtain ⟨f, rfl⟩ : ∃ f, fuel = f + 1 := ⟨fuel - 1, by omega⟩
      unfold shrink80 at b3
      rw [if_pos (by omega)] at b3
      simp only [Outcome.ok.injEq, Option.some.injEq, Prod.mk.injEq] at b3
      rw [hnb, b3.2, b3.1]
  refine ⟨s3, o3, sp2, tabs', t1, datas.take n, datas.drop n, ?_, d3, b1, hdat, d4, d6, d5, b4.within, b4.used, ?_,
    b4.budget, b4.total⟩
  · unfold setLen80
    rw [if_neg (by omega)]
    have hbind : (do let s ← touch e s o.block true
                     poke s o.block 8 (le32 newLen)) = .ok s1 := a1
    have htr : touch e s o.block true = .ok s := by
      obtain ⟨hp, h1, _⟩ := ho.header
      exact touch_read e s _ (getElem?_some_lt h1)
    rw [htr] at hbind
    simp only [Outcome.ok_bind] at hbind
    rw [← hdl, hn]
    simp only [htr, Outcome.ok_bind, hbind, hres]
    rw [hl1] at d1
    rw [d1]
    simp only [Outcome.ok_bind, d2]
  · intro q hq h1 h2
    rw [d7 q h1, b4.others q hq h1 h2]
    exact a4 q h1

/-! ## The common prefix -/

theorem dataPage_file80 {pages : List Bytes} {h : Nat} {tabs datas : List Nat} (hf : Spec.File80 pages h tabs datas) (k : Nat)
    (hk : k < datas.length) : Spec.dataPage pages Spec.file80 h k = some datas[k] := by
  obtain ⟨hp, r1, r2⟩ := hf.root
  obtain ⟨t, tp, a, b, c⟩ := hf.entry k hk
  have hl := getElem?_some_lt a
  have := r2 _ hl
  rw [List.getElem?_eq_getElem hl] at a
  unfold Spec.dataPage
  simp only [Spec.file80, r1, Option.bind_eq_bind, Option.bind_some, this, Option.some.inj a, b, c]

theorem byte_kept {pages pages' : List Bytes} {h h' : Nat} {tabs datas tabs' datas' : List Nat} (hf : Spec.File80 pages h tabs datas)
    (hf' : Spec.File80 pages' h' tabs' datas') (i : Nat) (h1 : i / 4096 < datas.length) (h2 : i / 4096 < datas'.length)
    (h3 : datas[i / 4096] = datas'[i / 4096]) (h4 : pages'[datas[i / 4096]]? = pages[datas[i / 4096]]?) :
    Spec.byteAt pages' 4096 Spec.file80 h' i = Spec.byteAt pages 4096 Spec.file80 h i := by
  unfold Spec.byteAt
  rw [dataPage_file80 hf _ h1, dataPage_file80 hf' _ h2, ← h3]
  simp only [Option.bind_eq_bind, Option.bind_some, h4]

/-- The number of pages is the number of pages of each kind. -/
theorem sound_total {sp : FreeSpec.State} {e : Env} {s : St} (h : Rep e s sp) :
    sp.total = sp.free.length + sp.own.length + sp.used.length + 2 := by
  have := h.sound.length_eq
  simp at this
  omega

/-- `set_len_80_partial`, also with bounds on the pages taken and released. -/
theorem set_len_80_more (e : Env) (hslack : 3 * 254 ≤ e.slack) (fuel : Nat) (s : St) (sp : FreeSpec.State) (o : Obj)
    (tabs datas : List Nat) (newLen k : Nat) (hr : Rep e s sp) (ho : Opened80 s o tabs datas) (hw : Within sp o.block tabs datas)
    (hpos : 0 < newLen) (h1 : newLen ≤ 254 * (1023 * 4096)) (h2 : o.len ≤ 254 * (1023 * 4096))
    (hsm : sp.total + 2 * ((newLen + 4095) / 4096) ≤ 2 ^ 32) (hb : Budget sp (2 * datas.length + k)) (hfuel : datas.length < fuel) :
    ∃ s' o' sp' tabs' datas', setLen80 e fuel s o newLen = .ok (some (s', o')) ∧ Rep e s' sp' ∧ Opened80 s' o' tabs' datas' ∧
      Within sp' o.block tabs' datas' ∧ o'.len = newLen ∧ o'.block = o.block ∧
      (∀ i, i < min o.len newLen → Spec.byteAt s'.pages 4096 Spec.file80 o.block i = Spec.byteAt s.pages 4096 Spec.file80 o.block i) ∧
      (∀ q ∈ sp.used, q ∉ o.block :: (tabs ++ datas) → q ∈ sp'.used ∧ q ∉ o.block :: (tabs' ++ datas') ∧
        s'.pages[q]? = s.pages[q]?) ∧ Budget sp' k ∧
      sp'.total ≤ sp.total + 2 * ((newLen + 4095) / 4096) := by
  have hdl := ho.nDatas
  rcases Nat.lt_trichotomy newLen o.len with hc | hc | hc
  · obtain ⟨s', o', sp', tabs', t1, datas', d1, a1, a2, a3, a4, a5, a6, a7, a8, a9, a10, a11, a12⟩ :=
      set_len_shrink_80_partial e hslack fuel s sp o tabs datas newLen k hr ho hw hc hpos h2 (budget_mono hb (by omega)) hfuel
    have hf' := a5.file
    rw [a7] at hf'
    have hnd' := a5.nDatas
    rw [a6] at hnd'
    refine ⟨s', o', sp', tabs', datas', a1, a2, a5, a8, a6, a7, ?_, ?_, a11, by omega⟩
    · intro i hi
      have hi' : i / 4096 < datas'.length := by omega
      have hg : datas[i / 4096]'(by omega) = datas'[i / 4096] := by
        subst a4
        rw [List.getElem_append_left hi']
      refine byte_kept ho.file hf' i (by omega) hi' hg ?_
      rw [hg]
      have hm : datas'[i / 4096] ∈ datas' := List.getElem_mem hi'
      have hq := (head_ne_tabs hf').2 _ hm
      exact a10 _ (a8 _ (by simp [hm])) (Ne.symm hq.1) hq.2
    · intro q hq hno
      have hno' : q ∉ o.block :: (tabs ++ datas) := hno
      simp only [List.mem_cons, List.mem_append, not_or] at hno
      have hq' : q ∈ sp'.used := by
        have := a9.mem_iff.mp hq
        simp only [List.mem_append] at this
        rcases this with (h | h) | h
        · exact absurd (by rw [a3]; simp [h]) hno.2.1
        · exact absurd (by rw [a4]; simp [h]) hno.2.2
        · exact h
      have hnt : q ∉ tabs' := fun h => hno.2.1 (by rw [a3]; simp [h])
      have hndd : q ∉ datas' := fun h => hno.2.2 (by rw [a4]; simp [h])
      exact ⟨hq', by simp [hno.1, hnt, hndd], a10 q hq' hno.1 hnt⟩
  · subst hc
    refine ⟨s, o, sp, tabs, datas, ?_, hr, ho, hw, rfl, rfl, fun _ _ => rfl, fun q hq hn => ⟨hq, hn, rfl⟩, budget_mono hb (by omega), by omega⟩
    unfold setLen80
    rw [if_pos rfl]
  · obtain ⟨s', o', sp', tabs', datas', a1, a2, a3, a4, a5, a6, a7, a8, a9, a10, a11⟩ :=
      set_len_grow_80_partial e hslack fuel s sp o tabs datas newLen hr ho hw hc h1 hsm
    have hf' := a3.file
    rw [a5] at hf'
    have hnd' := a3.nDatas
    have hnt' := a3.nTabs
    rw [a4] at hnd'
    simp only [List.length_append] at hnd' hnt'
    have hup := a7.length_eq
    simp only [List.length_append] at hup
    have ht1 := sound_total hr
    have ht2 := sound_total a2
    rw [a10] at ht2
    refine ⟨s', o', sp', tabs ++ tabs', datas ++ datas', a1, a2, a3, a6, a4, a5, ?_, ?_,
      ⟨by rw [a10]; exact hb.1, by have := hb.2; omega⟩, by have := ho.nTabs; omega⟩
    · intro i hi
      have hi' : i / 4096 < datas.length := by omega
      refine byte_kept ho.file hf' i hi' (by simp; omega) (by rw [List.getElem_append_left hi']) ?_
      have hm : datas[i / 4096] ∈ datas := List.getElem_mem hi'
      have hq := (head_ne_tabs ho.file).2 _ hm
      exact a9 _ (hw _ (by simp [hm])) (Ne.symm hq.1) hq.2
    · intro q hq hno
      simp only [List.mem_cons, List.mem_append, not_or] at hno
      have hnn : q ∉ tabs' ++ datas' := fun h => a8 q h hq
      simp only [List.mem_append, not_or] at hnn
      refine ⟨a7.mem_iff.mpr (by simp [hq]), ?_, a9 q hq hno.1 hno.2.1⟩
      simp [hno.1, hno.2.1, hno.2.2, hnn.1, hnn.2]

/-- **C25, format 8.0.** Whatever the old and the new length (not 0), the call succeeds, the
object has the new length, and the bytes that both lengths cover are unchanged; so are
all pages of other objects (`used` less the object's own). The object can be resized
again: it is whole and the free-page list is consistent. -/
theorem set_len_80_partial (e : Env) (hslack : 3 * 254 ≤ e.slack) (fuel : Nat) (s : St) (sp : FreeSpec.State) (o : Obj)
    (tabs datas : List Nat) (newLen : Nat) (hr : Rep e s sp) (ho : Opened80 s o tabs datas) (hw : Within sp o.block tabs datas)
    (hpos : 0 < newLen) (h1 : newLen ≤ 254 * (1023 * 4096)) (h2 : o.len ≤ 254 * (1023 * 4096))
    (hsm : sp.total + 2 * ((newLen + 4095) / 4096) ≤ 2 ^ 32) (hb : Budget sp (2 * datas.length)) (hfuel : datas.length < fuel) :
    ∃ s' o' sp' tabs' datas', setLen80 e fuel s o newLen = .ok (some (s', o')) ∧ Rep e s' sp' ∧ Opened80 s' o' tabs' datas' ∧
      Within sp' o.block tabs' datas' ∧ o'.len = newLen ∧ o'.block = o.block ∧
      (∀ i, i < min o.len newLen → Spec.byteAt s'.pages 4096 Spec.file80 o.block i = Spec.byteAt s.pages 4096 Spec.file80 o.block i) ∧
      (∀ q ∈ sp.used, q ∉ o.block :: (tabs ++ datas) → q ∈ sp'.used ∧ q ∉ o.block :: (tabs' ++ datas') ∧
        s'.pages[q]? = s.pages[q]?) := by
  obtain ⟨s', o', sp', tabs', datas', a1, a2, a3, a4, a5, a6, a7, a8, _⟩ :=
    set_len_80_more e hslack fuel s sp o tabs datas newLen 0 hr ho hw hpos h1 h2 hsm (by simpa using hb) hfuel
  exact ⟨s', o', sp', tabs', datas', a1, a2, a3, a4, a5, a6, a7, a8⟩

/-! ## Non-vacuity: an empty file is grown, then shrunk -/

def emptyFileDb (n : Nat) : St := { freshDb n with pages := (freshDb n).pages.set 2 freshHeader }

def emptyFile : Obj := ⟨.data80, 2, 0, 1, 0, 0, [], none, 0, 0, 1, 0, false⟩

theorem emptyFile_rep (e : Env) (hP : e.P = 4096) (n : Nat) (h0 : 0 < n) (hn : n + 2 ≤ 2 ^ 32) :
    Rep e (emptyFileDb n) (freshSpec n) := by
  refine rep_set (fresh_rep e hP n hn) (q := 2) (p := freshHeader) ?_ ?_ rfl rfl
  · simp [freshSpec]; exact h0
  · rw [freshHeader, length_splice _ _ _ (by rw [List.length_replicate]; decide)]; exact List.length_replicate

theorem emptyFile_opened (n : Nat) (h0 : 0 < n) : Opened80 (emptyFileDb n) emptyFile [] [] := by
  have hlt : 2 < (freshDb n).pages.length := by
    unfold freshDb; rw [List.length_cons, List.length_cons, List.length_replicate]; omega
  have hp : (emptyFileDb n).pages[2]? = some freshHeader := by
    unfold emptyFileDb; exact get_set_eq _ _ _ hlt
  refine ⟨rfl, rfl, rfl, by decide, by decide, ⟨freshHeader, hp, rfl, freshHeader_word 8 (by omega) (by omega)⟩, ?_⟩
  exact ⟨⟨freshHeader, hp, by simp⟩, by simp, by simp, by simp⟩

example (ora : Nat → Bool) : ∃ s1 o1 s2 o2,
    setLen80 ⟨4096, ora, 762⟩ 9 (emptyFileDb 3) emptyFile 5000 = .ok (some (s1, o1)) ∧ o1.len = 5000 ∧
    setLen80 ⟨4096, ora, 762⟩ 9 s1 o1 100 = .ok (some (s2, o2)) ∧ o2.len = 100 ∧
    ∀ i, i < 100 → Spec.byteAt s2.pages 4096 Spec.file80 2 i = Spec.byteAt s1.pages 4096 Spec.file80 2 i := by
  obtain ⟨s1, o1, sp1, tabs, datas, a1, a2, a3, a4, a5, a6, a7, a8, a9, a10, a11⟩ :=
    set_len_grow_80_partial ⟨4096, ora, 762⟩ (Nat.le_refl 762) 9 (emptyFileDb 3) (freshSpec 3) emptyFile [] [] 5000
      (emptyFile_rep _ rfl 3 (by decide) (by decide)) (emptyFile_opened 3 (by decide))
      (by intro q hq; simp at hq; subst hq; decide) (by decide) (by decide) (by decide)
  simp only [List.nil_append] at a3 a6
  have hnd := a3.nDatas
  rw [a4] at hnd
  obtain ⟨s2, o2, sp2, tabs2, datas2, b1, b2, b3, b4, b5, b6, b7, b8⟩ :=
    set_len_80_partial ⟨4096, ora, 762⟩ (Nat.le_refl 762) 9 s1 sp1 o1 tabs datas 100 a2 a3 (by rw [a5]; exact a6) (by decide)
      (by decide) (by rw [a4]; decide) (by
        have h := a2.small
        have hp := a2.sound.length_eq
        have hl := a7.length_eq
        have ht := a3.nTabs
        have hown : sp1.own.length = 0 := by rw [a10]; rfl
        have hfree : sp1.free.length = 0 := by have : sp1.free.length ≤ 0 := a11; omega
        have hus : (freshSpec 3).used.length = 3 := by simp [freshSpec]
        simp only [List.length_append, List.length_cons, List.length_range] at hp hl
        omega)
      ⟨by rw [a10]; decide, by
        have : sp1.free.length ≤ 0 := a11
        omega⟩ (by omega)
  refine ⟨s1, o1, s2, o2, a1, a4, b1, b5, ?_⟩
  intro i hi
  have := b7 i (by rw [a4]; omega)
  rw [a5] at this
  exact this

/-! ## What does not hold -/

/-- **Finding (C25).** Read strictly, growing always writes past the end of the vector of
root entries. -/
theorem set_len_grow_overflows (e : Env) (hslack : e.slack = 0) (fuel : Nat) (s : St) (sp : FreeSpec.State) (o : Obj)
    (tabs datas : List Nat) (newLen : Nat) (hr : Rep e s sp) (ho : Opened80 s o tabs datas) (hw : Within sp o.block tabs datas)
    (hgt : o.len < newLen) (hmax : newLen ≤ 254 * (1023 * 4096)) (hsm : sp.total + 2 * ((newLen + 4095) / 4096) ≤ 2 ^ 32) :
    setLen80 e fuel s o newLen = .ub := by
  obtain ⟨s1, s2, sp2, tabs', datas', hp2, htr, hbind, hres, b2, a4, hD, b4, b5, c1, hsig, hlen2⟩ :=
    grow_core e fuel s sp o tabs datas newLen hr ho hw hgt hmax hsm
  unfold setLen80
  rw [if_neg (by omega)]
  simp only [htr, Outcome.ok_bind, hbind, hres]
  have hl : hp2.length = 4096 := b2.rep.full _ (List.mem_of_getElem? c1)
  obtain ⟨ws, w1, _⟩ := copyRoot_exists hp2 24 ((tabs ++ tabs').length * 4) (by omega)
  have : refreshRoot e s2 o (tabs ++ tabs').length (((newLen + 4095) / 4096 + 1022) / 1023) = .ub := by
    unfold refreshRoot
    rw [if_neg (by omega)]
    simp only [peekMany, c1, w1, Outcome.ok_bind]
    rw [if_pos (by omega)]
  rw [this]
  rfl

theorem shrink80_zero (e : Env) (h : Nat) : ∀ (fuel cur nb t : Nat) (s : St) r, shrink80 e h 0 fuel cur nb t s ≠ .ok (some r) := by
  intro fuel
  induction fuel with
  | zero => intro cur nb t s r; simp [shrink80]
  | succ fuel ih =>
    intro cur nb t s r hh
    unfold shrink80 at hh
    rw [if_neg (by omega)] at hh
    obtain ⟨p, _, hh⟩ := bind_ok' hh
    obtain ⟨s1, _, hh⟩ := bind_ok' hh
    obtain ⟨s2, _, hh⟩ := bind_ok' hh
    obtain ⟨s3, _, hh⟩ := bind_ok' hh
    split at hh
    · obtain ⟨⟨s4, nb4, t4⟩, _, hh⟩ := bind_ok' hh
      exact ih _ _ _ _ _ hh
    · exact ih _ _ _ _ _ hh

/-- **Finding (C25).** Truncating a non-empty object to length 0 never completes: however
long the loop is run, the call does not return normally. -/
theorem set_len_zero_never_returns (e : Env) (fuel : Nat) (s : St) (o : Obj) (hl : 0 < o.len) :
    ∀ r, setLen80 e fuel s o 0 ≠ .ok (some r) := by
  intro r hh
  unfold setLen80 at hh
  rw [if_neg (by omega)] at hh
  obtain ⟨s1, _, hh⟩ := bind_ok' hh
  obtain ⟨s2, _, hh⟩ := bind_ok' hh
  obtain ⟨x, hx, hh⟩ := bind_ok' hh
  cases x with
  | none => cases hh
  | some y =>
    unfold resize80 at hx
    rw [if_neg (by omega), if_pos (by omega)] at hx
    split at hx
    · cases hx
    · obtain ⟨t, _, hx⟩ := bind_ok' hx
      obtain ⟨s3, _, hx⟩ := bind_ok' hx
      exact shrink80_zero _ _ _ _ _ _ _ _ hx

/-- **Finding (C25).** An empty object of format 8.3.8 cannot be given contents that fit in
one level: its last root entry, of which there is none, is looked up first. -/
theorem set_len_838_from_empty (e : Env) (fuel : Nat) (s : St) (o : Obj) (newLen : Nat) (hp : Bytes)
    (h1 : s.pages[o.block]? = some hp) (hl : 24 ≤ hp.length) (he : o.len = 0) (hn : o.numblocks = 0) (hpos : 0 < newLen)
    (hmax : newLen ≤ maxLen838 e.P) (hone : (newLen + e.P - 1) / e.P ≤ e.P / 4 - 6) (hP : 0 < e.P) :
    setLen838 e fuel s o newLen = .ub := by
  have hnd : 0 < (newLen + e.P - 1) / e.P := Nat.div_pos (by omega) hP
  have hc : (0 + e.P - 1) / e.P = 0 := Nat.div_eq_of_lt (by omega)
  unfold setLen838
  rw [if_neg (by omega), if_neg (by omega), touch_read e s _ (getElem?_some_lt h1)]
  simp only [Outcome.ok_bind]
  rw [poke_ok s o.block 16 _ hp h1 (by simp [length_le32]; omega)]
  simp only [Outcome.ok_bind, he, hc, if_neg (show ¬ (newLen + e.P - 1) / e.P > e.P / 4 - 6 by omega)]
  unfold resize838
  simp only
  rw [if_pos hnd, if_neg (by simp), if_pos hn]
  rfl

/-- **Finding (C25).** Shrinking an object of format 8.3.8 with two levels by a page or more
reads an uninitialised pointer. -/
theorem set_len_838_shrink_two_levels (e : Env) (fuel : Nat) (s : St) (o : Obj) (newLen : Nat) (hp : Bytes)
    (h1 : s.pages[o.block]? = some hp) (hl : 24 ≤ hp.length) (hfat : o.fatlevel ≠ 0)
    (hmax : newLen ≤ maxLen838 e.P) (hless : (newLen + e.P - 1) / e.P < (o.len + e.P - 1) / e.P) :
    setLen838 e fuel s o newLen = .ub := by
  unfold setLen838
  rw [if_neg (by rintro h; rw [h] at hless; omega), if_neg (by omega), touch_read e s _ (getElem?_some_lt h1)]
  simp only [Outcome.ok_bind]
  rw [poke_ok s o.block 16 _ hp h1 (by simp [length_le32]; omega)]
  simp only [Outcome.ok_bind]
  unfold resize838
  simp only
  rw [if_neg (by omega), if_pos hless, if_pos hfat]
  rfl

/-- **Finding (C25).** The greatest length accepted for format 8.3.8 is computed in 32 bits.
For pages of 64 KiB it comes out as 2 GiB, a small part of what the format holds. -/
theorem max_length_wraps : maxLen838 65536 = 2 ^ 31 ∧ 65536 * (65536 / 4) * (65536 / 4 - 6) > 2 ^ 43 ∧
    maxLen838 4096 = 4096 * 1024 * 1018 := by decide

/-- A database of format 8.3.8 with pages of 64 bytes: a file of one page (page 3) with
header page 2. -/
def onePage838 : St :=
  ⟨[List.replicate 64 9, [0x1c, 0xff] ++ List.replicate 62 0,
    [0x1c, 0xfd, 0, 0] ++ List.replicate 12 0 ++ [64, 0, 0, 0, 0, 0, 0, 0] ++ [3, 0, 0, 0] ++ List.replicate 36 0,
    List.replicate 64 7], ⟨.free838, 1, 0, 0, 0, 0, [], none, 0, 0, 1, 0, false⟩, 0⟩

/-- **Finding (C25, C23).** Growing a file of format 8.3.8 within one level leaves zeros in
the root list in memory from four times its old number of pages on. Writing five
pages into a file of one page puts the last of them over page 0, the header of the
database, without an error. -/
theorem grow_838_overwrites_page_zero :
    ((init onePage838.pages 64 true 2).bind fun o =>
      (setData838 ⟨64, fun _ => false, 0⟩ false 9 onePage838 o 0 (List.replicate 320 5)).bind fun r =>
      .ok (r.map fun x => x.1.pages[0]?)) = .ok (some (some (List.replicate 64 5))) := by decide +kernel

/-- **Finding (C25).** After growing within one level the number of pages in memory is the old
one: reading the whole object then runs out of pages. -/
theorem grow_838_keeps_old_count :
    ((init onePage838.pages 64 true 2).bind fun o =>
      (setLen838 ⟨64, fun _ => false, 3⟩ 9 onePage838 o 128).bind fun r =>
      .ok (r.map fun x => (x.2.len, x.2.numblocks, decide (getWhole x.1.pages 64 x.2 = .ub)))) = .ok (some (128, 1, true)) := by decide +kernel

/-! ## The free-page file of format 8.3.8 (C26) -/

/-- **Finding (C26).** In format 8.3.8 a released page is entered through the header layout
of format 8.0: the count goes over the first entry of the root list, which then names
page 1 instead of the page that holds the list. -/
theorem release_838_breaks_root (e : Env) (s : St) (p t : Nat) (hp : Bytes) (hb : s.fr.block = 1) (hl : s.fr.len = 0)
    (hr : 0 < s.fr.realNumblocks) (hbl : s.fr.blocks[0]? = some t) (ht1 : t ≠ 1) (htp : Bytes) (ht : s.pages[t]? = some htp)
    (htl : 4 ≤ htp.length) (h1 : s.pages[1]? = some hp) (hpl : 12 ≤ hp.length) :
    ∃ s' hp', setFree e s p = .ok s' ∧ s'.pages[1]? = some hp' ∧ Spec.word hp' 8 = some 1 := by
  unfold setFree
  rw [if_neg (by omega), touch_read e s 1 (getElem?_some_lt h1)]
  simp only [Outcome.ok_bind, hl, Nat.zero_div, Nat.zero_mod, Nat.mul_zero, Nat.zero_add]
  rw [if_pos hr, poke_ok s 1 8 (le32 1) hp h1 (by rw [length_le32]; omega)]
  simp only [Outcome.ok_bind]
  have h2 : (s.pages.set 1 (splice hp 8 (le32 1)))[t]? = some htp := by
    rw [get_set_ne _ _ _ _ (Ne.symm ht1)]; exact ht
  rw [(idx_ok _ _ _).mpr hbl]
  simp only [Outcome.ok_bind]
  rw [touch_read _ _ t (getElem?_some_lt h2)]
  simp only [Outcome.ok_bind]
  rw [poke_ok _ t 0 (le32 p) htp h2 (by rw [length_le32]; omega)]
  refine ⟨_, _, rfl, ?_, word_splice_in hp 8 1 (by omega) (by decide)⟩
  show ((s.pages.set 1 (splice hp 8 (le32 1))).set t _)[1]? = _
  rw [get_set_ne _ _ _ _ ht1]
  exact get_set_eq _ _ _ (getElem?_some_lt h1)

/-- **Finding (C26).** Right after opening a database of format 8.3.8 no free page is ever
reused: a new page is appended. -/
theorem alloc_838_appends (e : Env) (s : St) (o : Obj) (ho : init s.pages e.P true 1 = .ok o) :
    ∃ s', getFree e { s with fr := o } = .ok (s.pages.length, s') ∧ s'.pages.length = s.pages.length + 1 := by
  have h1 : o.block = 1 ∧ o.len = 0 := by
    unfold init at ho
    obtain ⟨t, _, ho⟩ := bind_ok' ho
    simp only [Bool.true_eq_false, if_false, if_true] at ho
    split at ho
    · cases ho
    · obtain ⟨_, _, ho⟩ := bind_ok' ho
      obtain ⟨_, _, ho⟩ := bind_ok' ho
      obtain ⟨_, _, ho⟩ := bind_ok' ho
      cases ho
      exact ⟨rfl, rfl⟩
  unfold getFree
  rw [if_neg (by simp [h1.1]), if_neg (by simp [h1.2])]
  unfold touch
  simp only
  rw [if_neg (by omega)]
  simp

end Verif.Object
