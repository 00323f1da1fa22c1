import Verif.Object.ResizeLemmas
import Mathlib.Data.List.Induction

/-! # Lemmas: shrinking files of format 8.0 -/

namespace Verif.Object
open Verif

theorem peek_of_word {s : St} {n off v : Nat} {p : Bytes} (h : s.pages[n]? = some p) (hw : Spec.word p off = some v) :
    peek s n off = .ok v := by
  simp only [peek, h]
  exact (rd32_word _ _ _).mpr hw

theorem release_used {e : Env} {s : St} {sp : FreeSpec.State} (h : Rep e s sp) {p : Nat} (hp : p ∈ sp.used) :
    (∀ q ∈ sp.used, q ≠ p → q ∈ (FreeSpec.release sp p).used) ∧ sp.used.Perm (p :: (FreeSpec.release sp p).used) ∧
    (FreeSpec.release sp p).total = sp.total := by
  have hu : (FreeSpec.release sp p).used = sp.used.erase p := by unfold FreeSpec.release; split <;> rfl
  refine ⟨?_, by rw [hu]; exact List.perm_cons_erase hp, by unfold FreeSpec.release; split <;> rfl⟩
  intro q hq hne
  rw [hu, List.mem_erase_of_ne hne]
  exact hq

theorem file80_dropPage {pages pages' : List Bytes} {h d t : Nat} {tabs datas : List Nat}
    (hf : Spec.File80 pages h tabs (datas ++ [d])) (ht : tabs[datas.length / 1023]? = some t)
    (hlast : datas.length / 1023 + 1 = tabs.length) {tp tp' : Bytes} (h1 : pages[t]? = some tp)
    (h2 : pages'[t]? = some tp') (h3 : Spec.word tp' 0 = some (datas.length % 1023))
    (h5 : ∀ j, j < 1023 → j ≠ datas.length % 1023 → Spec.word tp' (4 + 4 * j) = Spec.word tp (4 + 4 * j))
    (h6 : ∀ q ∈ h :: tabs, q ≠ t → pages'[q]? = pages[q]?) : Spec.File80 pages' h tabs datas := by
  obtain ⟨hp0, r1, r2⟩ := hf.root
  have hd := hf.distinct
  have htm : t ∈ tabs := List.mem_of_getElem? ht
  have hht : h ≠ t := by
    rw [List.nodup_cons] at hd
    intro hh
    exact hd.1 (by rw [hh]; simp [htm])
  have hndt : tabs.Nodup := by
    rw [List.nodup_cons, List.nodup_append] at hd
    exact hd.2.1
  refine ⟨⟨hp0, by rw [h6 h (by simp) hht]; exact r1, r2⟩, ?_, ?_, ?_⟩
  · intro k hl
    obtain ⟨u, up, a, b, c⟩ := hf.entry k (by simp; omega)
    rw [List.getElem_append_left hl] at c
    by_cases hu : u = t
    · subst hu
      rw [h1] at b; cases b
      refine ⟨u, tp', a, h2, ?_⟩
      rw [h5 _ (Nat.mod_lt _ (by decide)) ?_]
      · exact c
      · intro hm
        have hq : k / 1023 = datas.length / 1023 := by
          apply Classical.byContradiction
          intro hne
          exact nodup_get_ne hndt a ht hne rfl
        have := Nat.div_add_mod k 1023
        have := Nat.div_add_mod datas.length 1023
        rw [hq, hm] at *
        omega
    · exact ⟨u, up, a, by rw [h6 u (List.mem_cons_of_mem _ (List.mem_of_getElem? a)) hu]; exact b, c⟩
  · intro k u hk
    obtain ⟨up, a, b⟩ := hf.counts k u hk
    have hklt := getElem?_some_lt hk
    simp only [List.length_append, List.length_singleton] at b
    by_cases hu : u = t
    · subst hu
      have hq : k = datas.length / 1023 := by
        apply Classical.byContradiction
        intro hne
        exact nodup_get_ne hndt hk ht hne rfl
      refine ⟨tp', h2, ?_⟩
      rw [h3]
      congr 1
      have := Nat.div_add_mod datas.length 1023
      have := Nat.mod_lt datas.length (show 0 < 1023 by decide)
      rw [← hq] at *
      omega
    · have hq : k ≠ datas.length / 1023 := by
        rintro rfl
        rw [ht] at hk; cases hk; exact hu rfl
      refine ⟨up, by rw [h6 u (List.mem_cons_of_mem _ (List.mem_of_getElem? hk)) hu]; exact a, ?_⟩
      rw [b]
      congr 1
      have := Nat.div_add_mod datas.length 1023
      omega
  · rw [← List.append_assoc, ← List.cons_append, List.nodup_append] at hd
    exact hd.1

theorem file80_dropTable {pages pages' : List Bytes} {h t : Nat} {tabs datas : List Nat}
    (hf : Spec.File80 pages h (tabs ++ [t]) datas) (hlen : datas.length = 1023 * tabs.length) {hp hp' : Bytes}
    (h1 : pages[h]? = some hp) (h2 : pages'[h]? = some hp')
    (h3 : ∀ i, i < 24 + 4 * tabs.length → hp'[i]? = hp[i]?) (h7 : ∀ q ∈ tabs, pages'[q]? = pages[q]?) :
    Spec.File80 pages' h tabs datas := by
  obtain ⟨hp0, r1, r2⟩ := hf.root
  rw [h1] at r1; cases r1
  refine ⟨⟨hp', h2, ?_⟩, ?_, ?_, ?_⟩
  · intro k hk
    have := r2 k (by simp; omega)
    rw [List.getElem_append_left hk] at this
    rw [← this]
    exact word_of_get _ _ _ (fun i _ _ => h3 i (by omega))
  · intro k hk
    obtain ⟨u, tp, a, b, c⟩ := hf.entry k hk
    rw [List.getElem?_append_left (by omega)] at a
    exact ⟨u, tp, a, by rw [h7 u (List.mem_of_getElem? a)]; exact b, c⟩
  · intro k u hk
    obtain ⟨tp, a, b⟩ := hf.counts k u (by rw [List.getElem?_append_left (getElem?_some_lt hk)]; exact hk)
    exact ⟨tp, by rw [h7 u (List.mem_of_getElem? hk)]; exact a, b⟩
  · have hd := hf.distinct
    refine hd.sublist ?_
    refine List.Sublist.cons_cons _ (List.Sublist.append_right (List.sublist_append_left tabs [t]) datas)

/-- What a step of shrinking guarantees: the file has lost the tables `t1` and the data
pages `d1`, and these pages, no others, have been released. -/
structure Shrunk (e : Env) (s : St) (sp : FreeSpec.State) (h : Nat)
    (s' : St) (sp' : FreeSpec.State) (tabs datas t1 d1 : List Nat) (k : Nat) : Prop where
  rep : Rep e s' sp'
  file : Spec.File80 s'.pages h tabs datas
  within : Within sp' h tabs datas
  used : sp.used.Perm (t1 ++ d1 ++ sp'.used)
  total : sp'.total = sp.total
  budget : Budget sp' k
  others : ∀ q ∈ sp'.used, q ≠ h → q ∉ tabs → s'.pages[q]? = s.pages[q]?
  header : ∀ hp, s.pages[h]? = some hp → ∃ hp', s'.pages[h]? = some hp' ∧ ∀ i, i < 24 → hp'[i]? = hp[i]?

theorem rep_used_nodup {e : Env} {s : St} {sp : FreeSpec.State} (h : Rep e s sp) : sp.used.Nodup := by
  have hnd := FreeSpec.sound_nodup _ h.sound
  simp only [List.nodup_cons] at hnd
  have h2 := hnd.2.2
  rw [List.nodup_append] at h2
  exact h2.2.1

theorem shrunk_trans {e : Env} {s s' s'' : St} {sp sp' sp'' : FreeSpec.State} {h : Nat}
    {tabs datas t1 d1 tabs2 datas2 t2 d2 : List Nat} {k l : Nat}
    (a : Shrunk e s sp h s' sp' tabs datas t1 d1 k) (b : Shrunk e s' sp' h s'' sp'' tabs2 datas2 t2 d2 l)
    (htabs : tabs = tabs2 ++ t2) : Shrunk e s sp h s'' sp'' tabs2 datas2 (t2 ++ t1) (d2 ++ d1) l := by
  refine ⟨b.rep, b.file, b.within, ?_, b.total.trans a.total, b.budget, ?_, ?_⟩
  · refine a.used.trans ((List.Perm.append_left _ b.used).trans ?_)
    rw [List.perm_iff_count]
    intro x
    simp only [List.count_append]
    omega
  · intro q hq h1 h2
    have hnd := rep_used_nodup a.rep
    rw [b.used.nodup_iff, List.nodup_append] at hnd
    have hqt : q ∉ tabs := by
      rw [htabs, List.mem_append, not_or]
      exact ⟨h2, fun hh => hnd.2.2 q (by simp [hh]) q hq rfl⟩
    rw [b.others q hq h1 h2]
    exact a.others q (b.used.mem_iff.mpr (by simp [hq])) h1 hqt
  · intro hp hh
    obtain ⟨hp', a1, a2⟩ := a.header hp hh
    obtain ⟨hp'', b1, b2⟩ := b.header hp' a1
    exact ⟨hp'', b1, fun i hi => (b2 i hi).trans (a2 i hi)⟩

theorem shrunk_nil {e : Env} {s : St} {sp : FreeSpec.State} {h : Nat} {tabs datas : List Nat} {k : Nat} (h1 : Rep e s sp)
    (h2 : Spec.File80 s.pages h tabs datas) (h3 : Within sp h tabs datas) (h4 : Budget sp k) :
    Shrunk e s sp h s sp tabs datas [] [] k :=
  ⟨h1, h2, h3, by simp, rfl, h4, fun _ _ _ _ => rfl, fun hp hh => ⟨hp, hh, fun _ _ => rfl⟩⟩

/-- One turn of the loop up to the test for an empty table. -/
theorem step_dropPage {e : Env} {s : St} {sp : FreeSpec.State} {h d t : Nat} {tabs datas : List Nat} {k : Nat} (hr : Rep e s sp)
    (hf : Spec.File80 s.pages h tabs (datas ++ [d])) (hw : Within sp h tabs (datas ++ [d]))
    (ht : tabs[datas.length / 1023]? = some t) (hlast : datas.length / 1023 + 1 = tabs.length)
    (hb : Budget sp (k + 1)) (hslack : 3 * 254 ≤ e.slack) :
    ∃ s1 s2 s3, peek s t (4 + 4 * (datas.length % 1023)) = .ok d ∧ setFree e s d = .ok s1 ∧
      poke s1 t (4 + 4 * (datas.length % 1023)) (le32 0) = .ok s2 ∧ poke s2 t 0 (le32 (datas.length % 1023)) = .ok s3 ∧
      Shrunk e s sp h s3 (FreeSpec.release sp d) tabs datas [] [d] k := by
  have hml := Nat.mod_lt datas.length (show 0 < 1023 by decide)
  have hnd := hf.distinct
  have htm : t ∈ tabs := List.mem_of_getElem? ht
  have hdu : d ∈ sp.used := hw d (by simp)
  have htu : t ∈ sp.used := hw t (by simp [htm])
  rw [List.nodup_cons, List.nodup_append] at hnd
  have hdt : t ≠ d := hnd.2.2.2 t htm d (by simp)
  have hht : h ≠ t := fun x => hnd.1 (by rw [x]; simp [htm])
  have hhd : h ≠ d := fun x => hnd.1 (by rw [x]; simp)
  obtain ⟨u, tp, e1, e2, e3⟩ := hf.entry datas.length (by simp)
  rw [ht] at e1; cases e1
  simp only [List.getElem_concat_length] at e3
  obtain ⟨s1, a1, a2, a3, a4, a5⟩ := setFree_refines e s sp hr d hdu hb.1 hslack
  obtain ⟨r1, r2, r3⟩ := release_used hr hdu
  have htu1 := r1 t htu hdt
  have htp1 : s1.pages[t]? = some tp := by rw [a3 t htu]; exact e2
  have htl : tp.length = 4096 := hr.full _ (List.mem_of_getElem? e2)
  generalize hi : datas.length % 1023 = i at *
  obtain ⟨s2, b1, b2, b3⟩ := poke_used a2 htu1 htp1 (4 + 4 * i) (le32 0) (by rw [length_le32]; omega)
  have htp2 : s2.pages[t]? = some (splice tp (4 + 4 * i) (le32 0)) := by
    rw [b3]; exact get_set_eq _ _ _ (getElem?_some_lt htp1)
  obtain ⟨s3, c1, c2, c3⟩ := poke_used b2 htu1 htp2 0 (le32 i) (by rw [length_le32]; omega)
  have htp3 : s3.pages[t]? = some (splice (splice tp (4 + 4 * i) (le32 0)) 0 (le32 i)) := by
    rw [c3]; exact get_set_eq _ _ _ (getElem?_some_lt htp2)
  have hl1 : (splice tp (4 + 4 * i) (le32 0)).length = 4096 := by
    rw [length_splice _ _ _ (by rw [length_le32]; omega)]; exact htl
  have hoth : ∀ q ∈ sp.used, q ≠ t → s3.pages[q]? = s.pages[q]? := by
    intro q hq hqt
    rw [c3, get_set_ne _ _ _ _ (Ne.symm hqt), b3, get_set_ne _ _ _ _ (Ne.symm hqt)]
    exact a3 q hq
  refine ⟨s1, s2, s3, peek_of_word e2 e3, a1, b1, c1, c2, ?_, ?_, ?_, r3, budget_release hr hb d, ?_, ?_⟩
  · refine file80_dropPage hf ht hlast e2 htp3 ?_ ?_ ?_
    · rw [hi]; exact word_splice_in _ _ _ (by omega) (by omega)
    · intro j hj hji
      rw [hi] at hji
      rw [word_splice_out _ _ _ _ (by rw [length_le32]; omega) (by rw [length_le32]; omega),
        word_splice_out _ _ _ _ (by rw [length_le32]; omega) (by rw [length_le32]; omega)]
    · intro q hq hqt
      refine hoth q (hw q ?_) hqt
      rcases List.mem_cons.mp hq with rfl | hq
      · simp
      · simp [hq]
  · intro q hq
    have hq' : q ∈ sp.used := hw q (by
      simp only [List.mem_cons, List.mem_append] at hq ⊢
      rcases hq with h | h | h
      · exact Or.inl h
      · exact Or.inr (Or.inl h)
      · exact Or.inr (Or.inr (Or.inl h)))
    refine r1 q hq' ?_
    rintro rfl
    simp only [List.mem_cons, List.mem_append] at hq
    rcases hq with h | h | h
    · exact hhd h.symm
    · exact hnd.2.2.2 q h q (by simp) rfl
    · have := hnd.2.2.1
      rw [List.nodup_append] at this
      exact this.2.2 q h q (by simp) rfl
  · simpa using r2
  · intro q hq _ h2
    exact hoth q (r2.mem_iff.mpr (by simp [hq])) (fun x => h2 (x ▸ htm))
  · intro hp hh
    exact ⟨hp, by rw [hoth h (hw h (by simp)) hht]; exact hh, fun _ _ => rfl⟩

/-- The end of a turn that empties a table other than the first. -/
theorem step_dropTable {e : Env} {s : St} {sp : FreeSpec.State} {h t u x : Nat} {tabs datas : List Nat} {k : Nat} (hr : Rep e s sp)
    (hf : Spec.File80 s.pages h (tabs ++ [u] ++ [t]) datas) (hw : Within sp h (tabs ++ [u] ++ [t]) datas)
    (hlen : datas.length = 1023 * (tabs.length + 1)) (hnb : tabs.length + 2 ≤ 1018)
    (hb : Budget sp (k + 1)) (hslack : 3 * 254 ≤ e.slack) :
    ∃ s', dropTable e s h (tabs.length + 2) x = .ok (s', tabs.length + 1, u) ∧
      Shrunk e s sp h s' (FreeSpec.release sp t) (tabs ++ [u]) datas [t] [] k := by
  have hnd := hf.distinct
  have htu : t ∈ sp.used := hw t (by simp)
  have huu : u ∈ sp.used := hw u (by simp)
  have hhu : h ∈ sp.used := hw h (by simp)
  rw [List.nodup_cons, List.nodup_append, List.nodup_append] at hnd
  have hht : h ≠ t := fun x => hnd.1 (by rw [x]; simp)
  have hhuu : h ≠ u := fun x => hnd.1 (by rw [x]; simp)
  have hut : u ≠ t := hnd.2.1.2.2 u (by simp) t (by simp)
  obtain ⟨hp, r0, r1⟩ := hf.root
  have hpl : hp.length = 4096 := hr.full _ (List.mem_of_getElem? r0)
  have w1 := r1 (tabs.length + 1) (by simp)
  have w2 := r1 tabs.length (by simp)
  have e1 : (tabs ++ [u] ++ [t])[tabs.length + 1]'(by simp) = t := by simp
  have e2 : (tabs ++ [u] ++ [t])[tabs.length]'(by simp) = u := by simp
  rw [e1] at w1
  rw [e2] at w2
  obtain ⟨s1, a1, a2, a3, a4, a5⟩ := setFree_refines e s sp hr t htu hb.1 hslack
  obtain ⟨q1, q2, q3⟩ := release_used hr htu
  have hp1 : s1.pages[h]? = some hp := by rw [a3 h hhu]; exact r0
  obtain ⟨s2, b1, b2, b3⟩ := poke_used a2 (q1 h hhu hht) hp1 (24 + 4 * (tabs.length + 1)) (le32 0) (by rw [length_le32]; omega)
  have hp2 : s2.pages[h]? = some (splice hp (24 + 4 * (tabs.length + 1)) (le32 0)) := by
    rw [b3]; exact get_set_eq _ _ _ (getElem?_some_lt hp1)
  have hw2 : Spec.word (splice hp (24 + 4 * (tabs.length + 1)) (le32 0)) (24 + 4 * tabs.length) = some u := by
    rw [word_splice_out _ _ _ _ (by rw [length_le32]; omega) (by rw [length_le32]; omega)]
    exact w2
  have hoth : ∀ q ∈ sp.used, q ≠ h → s2.pages[q]? = s.pages[q]? := by
    intro q hq hqt
    rw [b3, get_set_ne _ _ _ _ (Ne.symm hqt)]
    exact a3 q hq
  have hul : u < s2.pages.length := (used_facts b2 (q1 u huu hut)).1
  refine ⟨s2, ?_, b2, ?_, ?_, ?_, q3, budget_release hr hb t, ?_, ?_⟩
  · unfold dropTable
    rw [if_neg (by omega)]
    simp only [show tabs.length + 2 - 1 = tabs.length + 1 by omega, show tabs.length + 2 - 2 = tabs.length by omega,
      peek_of_word r0 w1, Outcome.ok_bind, a1, b1, peek_of_word hp2 hw2, touch_read e s2 u hul]
    rw [if_pos (by omega)]
  · refine file80_dropTable hf (by simpa using hlen) r0 hp2 ?_ ?_
    · intro i hi
      simp only [List.length_append, List.length_singleton] at hi
      exact splice_get_out _ _ _ _ (by rw [length_le32]; omega) (by rw [length_le32]; omega)
    · intro q hq
      refine hoth q (hw q ?_) (fun x => hnd.1 ?_)
      · simp only [List.mem_cons, List.mem_append] at hq ⊢; exact Or.inr (Or.inl (Or.inl hq))
      · rw [← x]; simp only [List.mem_append] at hq ⊢; exact Or.inl (Or.inl hq)
  · intro q hq
    have hq' : q ∈ sp.used := hw q (by
      simp only [List.mem_cons, List.mem_append] at hq ⊢
      rcases hq with h | h | h
      · exact Or.inl h
      · exact Or.inr (Or.inl (Or.inl h))
      · exact Or.inr (Or.inr h))
    refine q1 q hq' ?_
    rintro rfl
    simp only [List.mem_cons] at hq
    rcases hq with h | h
    · exact hht h.symm
    · rw [List.mem_append] at h
      rcases h with h | h
      · exact hnd.2.1.2.2 q h q (by simp) rfl
      · exact hnd.2.2.2 q (by simp) q h rfl
  · simpa using q2
  · intro q hq h1 _
    exact hoth q (q2.mem_iff.mpr (by simp [hq])) h1
  · intro hp0 hh
    rw [r0] at hh; cases hh
    refine ⟨_, hp2, fun i hi => splice_get_out _ _ _ _ (by rw [length_le32]; omega) (by rw [length_le32]; omega)⟩

theorem shrink80_ok (e : Env) (hslack : 3 * 254 ≤ e.slack) (h : Nat) (datas : List Nat) (hpos : 0 < datas.length) (d1 : List Nat) :
    ∀ (fuel : Nat) (s : St) (sp : FreeSpec.State) (tabs : List Nat) (t k : Nat), Rep e s sp →
    Spec.File80 s.pages h tabs (datas ++ d1) → Within sp h tabs (datas ++ d1) →
    tabs.length = ((datas ++ d1).length + 1022) / 1023 → tabs.length ≤ 1018 → (datas ++ d1).length < 2 ^ 32 →
    tabs.getLast? = some t → Budget sp (2 * d1.length + k) → d1.length < fuel →
    ∃ s' sp' tabs' t1, tabs = tabs' ++ t1 ∧ tabs'.length = (datas.length + 1022) / 1023 ∧
      shrink80 e h datas.length fuel ((datas ++ d1).length - 1) tabs.length t s = .ok (some (s', tabs'.length)) ∧
      Shrunk e s sp h s' sp' tabs' datas t1 d1 k := by
  induction d1 using List.reverseRecOn with
  | nil =>
    intro fuel s sp tabs t k hr hf hw hc _ _ _ hb hfuel
    simp only [List.append_nil] at hf hw hc
    obtain ⟨fuel, rfl⟩ : ∃ n, fuel = n + 1 := ⟨fuel - 1, by omega⟩
    refine ⟨s, sp, tabs, [], by simp, hc, ?_, shrunk_nil hr hf hw (by simpa using hb)⟩
    unfold shrink80
    rw [if_pos (by simp; omega)]
  | append_singleton d1 d ih =>
    intro fuel s sp tabs t k hr hf hw hc hc2 hlen hlast hb hfuel
    obtain ⟨fuel, rfl⟩ : ∃ n, fuel = n + 1 := ⟨fuel - 1, by omega⟩
    simp only [List.length_append, List.length_singleton] at hc hlen hb hfuel
    rw [← List.append_assoc] at hf hw
    generalize hD : datas ++ d1 = D at hf hw ih
    have hDl : D.length = datas.length + d1.length := by rw [← hD]; simp
    have hdm := Nat.div_add_mod D.length 1023
    have hml := Nat.mod_lt D.length (show 0 < 1023 by decide)
    have hne : tabs ≠ [] := by rintro rfl; simp at hlast
    have htl : tabs[D.length / 1023]? = some t := by
      rw [List.getLast?_eq_getElem?] at hlast
      rw [show D.length / 1023 = tabs.length - 1 by omega]
      exact hlast
    obtain ⟨s1, s2, s3, a1, a2, a3, a4, a5⟩ := step_dropPage (k := 2 * d1.length + k + 1) hr hf hw htl (by omega)
      (budget_mono hb (by omega)) hslack
    have hcur : (datas ++ (d1 ++ [d])).length - 1 = D.length := by
      simp only [List.length_append, List.length_singleton]; omega
    have hdec : (D.length + 2 ^ 32 - 1) % 2 ^ 32 = D.length - 1 := by
      rw [show D.length + 2 ^ 32 - 1 = D.length - 1 + 2 ^ 32 by omega, Nat.add_mod_right, Nat.mod_eq_of_lt (by omega)]
    rw [hcur]
    unfold shrink80
    rw [if_neg (by omega)]
    simp only [a1, Outcome.ok_bind, a2, a3, a4, hdec]
    by_cases hz : D.length % 1023 = 0
    · rw [if_pos hz]
      obtain ⟨l, u, hl⟩ : ∃ l u, tabs = l ++ [u] ++ [t] := by
        obtain ⟨l0, x, h0⟩ := List.eq_nil_or_concat tabs |>.resolve_left hne
        rw [List.concat_eq_append] at h0
        rw [h0] at hlast
        simp at hlast
        subst hlast
        have : l0 ≠ [] := by rintro rfl; rw [h0] at hc; simp at hc; omega
        obtain ⟨l1, y, h1⟩ := List.eq_nil_or_concat l0 |>.resolve_left this
        rw [List.concat_eq_append] at h1
        exact ⟨l1, y, by rw [h0, h1]⟩
      have hll : tabs.length = l.length + 2 := by rw [hl]; simp
      have hf1 := a5.file
      have hw1 := a5.within
      rw [hl] at hf1 hw1
      obtain ⟨s4, b1, b2⟩ := step_dropTable (x := t) (k := 2 * d1.length + k) a5.rep hf1 hw1 (by omega) (by omega) a5.budget hslack
      rw [hll, b1]
      simp only [Outcome.ok_bind]
      obtain ⟨s5, sp5, tabs', t1, c1, c2, c3, c4⟩ := ih fuel s4 _ (l ++ [u]) u k b2.rep b2.file b2.within
        (by rw [List.length_append, List.length_singleton]; omega) (by simp; omega) (by omega) (by simp) b2.budget (by omega)
      refine ⟨s5, sp5, tabs', t1 ++ [t], by rw [hl, c1, List.append_assoc], c2, ?_, ?_⟩
      · simp only [List.length_append, List.length_singleton] at c3
        exact c3
      · have g1 := shrunk_trans a5 b2 hl
        have g2 := shrunk_trans g1 c4 c1
        simpa using g2
    · rw [if_neg hz]
      obtain ⟨s5, sp5, tabs', t1, c1, c2, c3, c4⟩ := ih fuel s3 _ tabs t k a5.rep a5.file a5.within
        (by omega) hc2 (by omega) hlast (budget_mono a5.budget (by omega)) (by omega)
      refine ⟨s5, sp5, tabs', t1, c1, c2, c3, ?_⟩
      have g2 := shrunk_trans a5 c4 c1
      simpa using g2

end Verif.Object
