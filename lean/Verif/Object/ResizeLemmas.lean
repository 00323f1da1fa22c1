import Verif.Object.DataTheorems
import Verif.Object.ResizeSpec

/-! # Lemmas: growing and shrinking files of format 8.0 -/

namespace Verif.Object
open Verif

/-! ## Pages in use can be written without disturbing the free-page list -/

theorem used_facts {e : Env} {s : St} {sp : FreeSpec.State} (h : Rep e s sp) {q : Nat} (hq : q ∈ sp.used) :
    q < s.pages.length ∧ q ≠ 0 ∧ q ≠ 1 ∧ q ∉ sp.own ∧ q ∉ sp.free := by
  have hnd := FreeSpec.sound_nodup sp h.sound
  have hm := (FreeSpec.sound_mem sp h.sound q).mp (by simp [hq])
  simp only [List.nodup_cons, List.mem_cons, List.mem_append, not_or] at hnd
  obtain ⟨⟨_, ⟨_, _⟩, h0⟩, ⟨⟨_, _⟩, h1⟩, h2⟩ := hnd
  rw [List.nodup_append] at h2
  refine ⟨by rw [h.total]; exact hm, ?_, ?_, ?_, ?_⟩
  · rintro rfl; exact h0 hq
  · rintro rfl; exact h1 hq
  · intro ho; exact h2.2.2 q (by simp [ho]) q hq rfl
  · intro ho; exact h2.2.2 q (by simp [ho]) q hq rfl

theorem rep_set {e : Env} {s s' : St} {sp : FreeSpec.State} (h : Rep e s sp) {q : Nat} (hq : q ∈ sp.used) {p : Bytes}
    (hp : p.length = 4096) (hfr : s'.fr = s.fr) (hpg : s'.pages = s.pages.set q p) : Rep e s' sp := by
  obtain ⟨_, u0, u1, uo, uf⟩ := used_facts h hq
  obtain ⟨p1, a1, a2, a3, a4, a5⟩ := h.hdr
  refine ⟨h.P, by rw [hfr]; exact h.block, by rw [hfr]; exact h.kind, by rw [hfr]; exact h.nodata,
    by rw [hfr]; exact h.len, by rw [hfr]; exact h.blocks, by rw [hfr]; exact h.real,
    by rw [hpg, List.length_set]; exact h.total, h.small, by rw [hpg]; exact set_lengths _ _ _ _ h.full hp,
    h.sound, h.room, h.root, ⟨p1, ?_, a2, a3, a4, a5⟩, ?_⟩
  · rw [hpg, get_set_ne _ _ _ _ u1]; exact a1
  · intro m hm t ht
    obtain ⟨tp, b1, b2⟩ := h.entries m hm t ht
    refine ⟨tp, ?_, b2⟩
    rw [hpg, get_set_ne _ _ _ _ (fun h => uo (by rw [h]; exact List.mem_of_getElem? ht))]
    exact b1

theorem page_of_used {e : Env} {s : St} {sp : FreeSpec.State} (h : Rep e s sp) {q : Nat} (hq : q ∈ sp.used) :
    ∃ p, s.pages[q]? = some p ∧ p.length = 4096 := by
  have hl := (used_facts h hq).1
  exact ⟨s.pages[q], List.getElem?_eq_getElem hl, h.full _ (List.getElem_mem hl)⟩

theorem poke_used {e : Env} {s : St} {sp : FreeSpec.State} (h : Rep e s sp) {q : Nat} (hq : q ∈ sp.used) {p : Bytes}
    (hp : s.pages[q]? = some p) (off : Nat) (b : Bytes) (hb : off + b.length ≤ 4096) :
    ∃ s', poke s q off b = .ok s' ∧ Rep e s' sp ∧ s'.pages = s.pages.set q (splice p off b) := by
  have hl : p.length = 4096 := h.full p (List.mem_of_getElem? hp)
  exact ⟨_, poke_ok s q off b p hp (by omega),
    rep_set h hq (p := splice p off b) (by rw [length_splice _ _ _ (by omega)]; exact hl) rfl rfl, rfl⟩

theorem touch_used {e : Env} {s : St} {sp : FreeSpec.State} (h : Rep e s sp) {q : Nat} (hq : q ∈ sp.used) :
    ∃ s' p, touch e s q false = .ok s' ∧ Rep e s' sp ∧ p.length = 4096 ∧ s'.pages = s.pages.set q p := by
  have hlt := (used_facts h hq).1
  obtain ⟨p, hp, hl⟩ := page_of_used h hq
  unfold touch
  rw [if_neg (by omega), if_neg (by omega), if_neg (by simp)]
  by_cases ho : e.ora s.tick = true
  · simp only [ho, if_true]
    have : s.pages = s.pages.set q p := by
      apply List.ext_getElem?
      intro i
      rw [List.getElem?_set]
      split
      · rename_i hh; subst hh; exact hp
      · rfl
    exact ⟨_, p, rfl, rep_set h hq hl rfl this, hl, this⟩
  · simp only [ho]
    have hz : (List.replicate e.P (0 : UInt8)).length = 4096 := by rw [List.length_replicate, h.P]
    generalize List.replicate e.P (0 : UInt8) = z at hz
    exact ⟨_, z, rfl, rep_set h hq hz rfl rfl, hz, rfl⟩

theorem alloc_used (sp : FreeSpec.State) : (FreeSpec.alloc sp).2.used = (FreeSpec.alloc sp).1 :: sp.used := by
  unfold FreeSpec.alloc; split <;> rfl

theorem alloc_total (sp : FreeSpec.State) : (FreeSpec.alloc sp).2.total ≤ sp.total + 1 ∧
    (FreeSpec.alloc sp).2.own = sp.own ∧ (FreeSpec.alloc sp).2.free.length ≤ sp.free.length := by
  unfold FreeSpec.alloc; split <;> simp

/-! ## One new page, one new table -/

theorem newPage_ok {e : Env} {s : St} {sp : FreeSpec.State} (h : Rep e s sp) (hsm : sp.total < 2 ^ 32) {t i : Nat}
    (ht : t ∈ sp.used) (hi : i < 1023) :
    ∃ s' tp tp', newPage e s t i = .ok s' ∧ Rep e s' (FreeSpec.alloc sp).2 ∧
      (∀ q ∈ sp.used, q ≠ t → s'.pages[q]? = s.pages[q]?) ∧
      s.pages[t]? = some tp ∧ s'.pages[t]? = some tp' ∧ Spec.word tp' 0 = some (i + 1) ∧
      Spec.word tp' (4 + 4 * i) = some (FreeSpec.alloc sp).1 ∧
      ∀ j, j < 1023 → j ≠ i → Spec.word tp' (4 + 4 * j) = Spec.word tp (4 + 4 * j) := by
  obtain ⟨s1, a1, a2, a3, a4, a5, a6, a7⟩ := getFree_refines e s sp h hsm
  obtain ⟨f1, f2, f3, f4, f5⟩ := alloc_is_fresh sp h.sound
  have hu := alloc_used sp
  have htot := (alloc_total sp).1
  generalize (FreeSpec.alloc sp).1 = bl at *
  generalize hsp1 : (FreeSpec.alloc sp).2 = sp1 at *
  have hblu : bl ∈ sp1.used := by rw [hu]; simp
  have htu : t ∈ sp1.used := by rw [hu]; simp [ht]
  have hne : bl ≠ t := fun hh => f1 (hh ▸ ht)
  obtain ⟨s2, p, b1, b2, b3, b4⟩ := touch_used a2 hblu
  obtain ⟨tp, ht1, ht2⟩ := page_of_used h ht
  have ht3 : s2.pages[t]? = some tp := by rw [b4, get_set_ne _ _ _ _ hne, a3 t ht]; exact ht1
  obtain ⟨s3, c1, c2, c3⟩ := poke_used b2 htu ht3 (4 + 4 * i) (le32 bl) (by rw [length_le32]; omega)
  have hlt2 := getElem?_some_lt ht3
  have ht4 : s3.pages[t]? = some (splice tp (4 + 4 * i) (le32 bl)) := by rw [c3]; exact get_set_eq _ _ _ hlt2
  obtain ⟨s4, d1, d2, d3⟩ := poke_used c2 htu ht4 0 (le32 (i + 1)) (by rw [length_le32]; omega)
  have hlt3 := getElem?_some_lt ht4
  have hl1 : (splice tp (4 + 4 * i) (le32 bl)).length = 4096 := by
    rw [length_splice _ _ _ (by rw [length_le32]; omega)]; exact ht2
  have hbl : bl < 2 ^ 32 := by omega
  refine ⟨s4, tp, _, ?_, d2, ?_, ht1, by rw [d3]; exact get_set_eq _ _ _ hlt3, ?_, ?_, ?_⟩
  · unfold newPage
    simp only [a1, Outcome.ok_bind, b1, c1, d1]
  · intro q hq hqt
    have hqb : bl ≠ q := fun hh => f1 (hh ▸ hq)
    rw [d3, get_set_ne _ _ _ _ (Ne.symm hqt), c3, get_set_ne _ _ _ _ (Ne.symm hqt), b4, get_set_ne _ _ _ _ hqb]
    exact a3 q hq
  · exact word_splice_in _ _ _ (by omega) (by omega)
  · rw [word_splice_out _ _ _ _ (by rw [length_le32]; omega) (by rw [length_le32]; omega)]
    exact word_splice_in _ _ _ (by omega) hbl
  · intro j hj hji
    rw [word_splice_out _ _ _ _ (by rw [length_le32]; omega) (by rw [length_le32]; omega),
      word_splice_out _ _ _ _ (by rw [length_le32]; omega) (by rw [length_le32]; omega)]

theorem newTable_ok {e : Env} {s : St} {sp : FreeSpec.State} (h : Rep e s sp) (hsm : sp.total < 2 ^ 32) {hd nb : Nat}
    (hh : hd ∈ sp.used) (hnb : nb < 1018) :
    ∃ s' hp hp' tp', newTable e s hd nb = .ok (s', (FreeSpec.alloc sp).1) ∧ Rep e s' (FreeSpec.alloc sp).2 ∧
      (∀ q ∈ sp.used, q ≠ hd → s'.pages[q]? = s.pages[q]?) ∧
      s.pages[hd]? = some hp ∧ s'.pages[hd]? = some hp' ∧ s'.pages[(FreeSpec.alloc sp).1]? = some tp' ∧
      Spec.word tp' 0 = some 0 ∧ Spec.word hp' (24 + 4 * nb) = some (FreeSpec.alloc sp).1 ∧
      (∀ i, i < 24 + 4 * nb ∨ 24 + 4 * nb + 4 ≤ i → hp'[i]? = hp[i]?) := by
  obtain ⟨s1, a1, a2, a3, a4, a5, a6, a7⟩ := getFree_refines e s sp h hsm
  obtain ⟨f1, f2, f3, f4, f5⟩ := alloc_is_fresh sp h.sound
  have hu := alloc_used sp
  have htot := (alloc_total sp).1
  generalize (FreeSpec.alloc sp).1 = bl at *
  generalize hsp1 : (FreeSpec.alloc sp).2 = sp1 at *
  have hblu : bl ∈ sp1.used := by rw [hu]; simp
  have hhu : hd ∈ sp1.used := by rw [hu]; simp [hh]
  have hne : bl ≠ hd := fun x => f1 (x ▸ hh)
  obtain ⟨hp, h1, h2⟩ := page_of_used h hh
  have h3 : s1.pages[hd]? = some hp := by rw [a3 hd hh]; exact h1
  obtain ⟨s2, b1, b2, b3⟩ := poke_used a2 hhu h3 (24 + 4 * nb) (le32 bl) (by rw [length_le32]; omega)
  obtain ⟨s3, p, c1, c2, c3, c4⟩ := touch_used b2 hblu
  have hlt1 := getElem?_some_lt h3
  have hbl1 : bl < s2.pages.length := (used_facts b2 hblu).1
  have h4 : s3.pages[bl]? = some p := by rw [c4]; exact get_set_eq _ _ _ hbl1
  obtain ⟨s4, d1, d2, d3⟩ := poke_used c2 hblu h4 0 (le32 0) (by rw [length_le32]; omega)
  have hlt3 := getElem?_some_lt h4
  refine ⟨s4, hp, splice hp (24 + 4 * nb) (le32 bl), splice p 0 (le32 0), ?_, d2, ?_, h1, ?_, ?_, ?_, ?_, ?_⟩
  · unfold newTable
    simp only [a1, Outcome.ok_bind, b1, c1, d1]
  · intro q hq hqt
    have hqb : bl ≠ q := fun hh => f1 (hh ▸ hq)
    rw [d3, get_set_ne _ _ _ _ hqb, c4, get_set_ne _ _ _ _ hqb, b3, get_set_ne _ _ _ _ (Ne.symm hqt)]
    exact a3 q hq
  · rw [d3, get_set_ne _ _ _ _ hne, c4, get_set_ne _ _ _ _ hne, b3]
    exact get_set_eq _ _ _ hlt1
  · rw [d3]; exact get_set_eq _ _ _ hlt3
  · exact word_splice_in _ _ _ (by omega) (by omega)
  · exact word_splice_in _ _ _ (by omega) (by omega)
  · intro i hi
    exact splice_get_out _ _ _ _ (by rw [length_le32]; omega) (by rw [length_le32]; omega)

/-! ## The file relation through one step -/

def Within (sp : FreeSpec.State) (h : Nat) (tabs datas : List Nat) : Prop :=
  ∀ q ∈ h :: (tabs ++ datas), q ∈ sp.used

theorem word_of_get (p q : Bytes) (off : Nat) (h : ∀ i, off ≤ i → i < off + 4 → p[i]? = q[i]?) :
    Spec.word p off = Spec.word q off := by
  unfold Spec.word
  rw [h off (by omega) (by omega), h (off + 1) (by omega) (by omega), h (off + 2) (by omega) (by omega),
    h (off + 3) (by omega) (by omega)]

theorem file80_newTable {pages pages' : List Bytes} {h bl : Nat} {tabs datas : List Nat} (hf : Spec.File80 pages h tabs datas)
    (hlen : datas.length = 1023 * tabs.length) {hp hp' tp' : Bytes} (h1 : pages[h]? = some hp) (h2 : pages'[h]? = some hp')
    (h3 : ∀ i, i < 24 + 4 * tabs.length ∨ 24 + 4 * tabs.length + 4 ≤ i → hp'[i]? = hp[i]?)
    (h4 : Spec.word hp' (24 + 4 * tabs.length) = some bl) (h5 : pages'[bl]? = some tp') (h6 : Spec.word tp' 0 = some 0)
    (h7 : ∀ q ∈ tabs, pages'[q]? = pages[q]?) (h8 : bl ∉ h :: (tabs ++ datas)) :
    Spec.File80 pages' h (tabs ++ [bl]) datas := by
  obtain ⟨hp0, r1, r2⟩ := hf.root
  rw [h1] at r1; cases r1
  refine ⟨⟨hp', h2, ?_⟩, ?_, ?_, ?_⟩
  · intro k hk
    simp only [List.length_append, List.length_singleton] at hk
    rcases Nat.lt_or_ge k tabs.length with hl | hl
    · rw [List.getElem_append_left hl, ← r2 k hl]
      exact word_of_get _ _ _ (fun i _ _ => h3 i (by omega))
    · have : k = tabs.length := by omega
      subst this
      rw [h4]; simp
  · intro k hk
    obtain ⟨t, tp, a, b, c⟩ := hf.entry k hk
    have ht : t ∈ tabs := List.mem_of_getElem? a
    exact ⟨t, tp, by rw [List.getElem?_append_left (by omega)]; exact a, by rw [h7 t ht]; exact b, c⟩
  · intro k t hk
    rcases Nat.lt_or_ge k tabs.length with hl | hl
    · rw [List.getElem?_append_left hl] at hk
      obtain ⟨tp, a, b⟩ := hf.counts k t hk
      exact ⟨tp, by rw [h7 t (List.mem_of_getElem? hk)]; exact a, b⟩
    · have hlt := getElem?_some_lt hk
      simp only [List.length_append, List.length_singleton] at hlt
      have : k = tabs.length := by omega
      subst this
      simp at hk
      subst hk
      refine ⟨tp', h5, ?_⟩
      rw [h6, show datas.length - 1023 * tabs.length = 0 by omega]
      rfl
  · have hd := hf.distinct
    have hpm : (h :: (tabs ++ [bl] ++ datas)).Perm (bl :: (h :: (tabs ++ datas))) := by
      rw [List.append_assoc]
      have : (tabs ++ ([bl] ++ datas)).Perm (bl :: (tabs ++ datas)) := by
        simp
      exact (List.Perm.cons h this).trans (List.Perm.swap _ _ _)
    rw [hpm.nodup_iff, List.nodup_cons]
    exact ⟨h8, hd⟩

theorem file80_newPage {pages pages' : List Bytes} {h bl t : Nat} {tabs datas : List Nat} (hf : Spec.File80 pages h tabs datas)
    (ht : tabs[datas.length / 1023]? = some t) (hlast : datas.length / 1023 + 1 = tabs.length) {tp tp' : Bytes} (h1 : pages[t]? = some tp) (h2 : pages'[t]? = some tp')
    (h3 : Spec.word tp' 0 = some (datas.length % 1023 + 1))
    (h4 : Spec.word tp' (4 + 4 * (datas.length % 1023)) = some bl)
    (h5 : ∀ j, j < 1023 → j ≠ datas.length % 1023 → Spec.word tp' (4 + 4 * j) = Spec.word tp (4 + 4 * j))
    (h6 : ∀ q ∈ h :: tabs, q ≠ t → pages'[q]? = pages[q]?) (h8 : bl ∉ h :: (tabs ++ datas)) :
    Spec.File80 pages' h tabs (datas ++ [bl]) := by
  obtain ⟨hp0, r1, r2⟩ := hf.root
  have hd := hf.distinct
  have htm : t ∈ tabs := List.mem_of_getElem? ht
  have hht : h ≠ t := by
    rw [List.nodup_cons] at hd
    intro hh
    exact hd.1 (by rw [hh]; simp [htm])
  have hndt : tabs.Nodup := by
    rw [List.nodup_cons, List.nodup_append] at hd
    exact hd.2.1
  refine ⟨⟨hp0, by rw [h6 h (by simp) hht]; exact r1, r2⟩, ?_, ?_, ?_⟩
  · intro k hk
    simp only [List.length_append, List.length_singleton] at hk
    rcases Nat.lt_or_ge k datas.length with hl | hl
    · obtain ⟨u, up, a, b, c⟩ := hf.entry k hl
      rw [List.getElem_append_left hl]
      by_cases hu : u = t
      · subst hu
        rw [h1] at b; cases b
        refine ⟨u, tp', a, h2, ?_⟩
        rw [h5 _ (Nat.mod_lt _ (by decide)) ?_]
        · exact c
        · intro hm
          have hq : k / 1023 = datas.length / 1023 := by
            apply Classical.byContradiction
            intro hne
            exact nodup_get_ne hndt a ht hne rfl
          have := Nat.div_add_mod k 1023
          have := Nat.div_add_mod datas.length 1023
          rw [hq, hm] at *
          omega
      · exact ⟨u, up, a, by rw [h6 u (List.mem_cons_of_mem _ (List.mem_of_getElem? a)) hu]; exact b, c⟩
    · have : k = datas.length := by omega
      subst this
      exact ⟨t, tp', ht, h2, by rw [h4]; simp⟩
  · intro k u hk
    obtain ⟨up, a, b⟩ := hf.counts k u hk
    have hklt := getElem?_some_lt hk
    simp only [List.length_append, List.length_singleton]
    by_cases hu : u = t
    · subst hu
      have hq : k = datas.length / 1023 := by
        apply Classical.byContradiction
        intro hne
        exact nodup_get_ne hndt hk ht hne rfl
      refine ⟨tp', h2, ?_⟩
      rw [h3]
      congr 1
      have := Nat.div_add_mod datas.length 1023
      have := Nat.mod_lt datas.length (show 0 < 1023 by decide)
      rw [← hq] at *
      omega
    · have hq : k ≠ datas.length / 1023 := by
        rintro rfl
        rw [ht] at hk; cases hk; exact hu rfl
      refine ⟨up, by rw [h6 u (List.mem_cons_of_mem _ (List.mem_of_getElem? hk)) hu]; exact a, ?_⟩
      rw [b]
      congr 1
      have := Nat.div_add_mod datas.length 1023
      omega
  · have hpm : (h :: (tabs ++ (datas ++ [bl]))).Perm (bl :: (h :: (tabs ++ datas))) := by
      rw [← List.append_assoc, ← List.cons_append]
      simpa using (List.perm_append_comm (l₁ := h :: (tabs ++ datas)) (l₂ := [bl]))
    rw [hpm.nodup_iff, List.nodup_cons]
    exact ⟨h8, hd⟩

/-! ## The growing loop -/

/-- What a step of growing guarantees. -/
structure Grown (e : Env) (s : St) (sp : FreeSpec.State) (h : Nat) (tabs datas : List Nat)
    (s' : St) (sp' : FreeSpec.State) (tabs' datas' : List Nat) : Prop where
  rep : Rep e s' sp'
  file : Spec.File80 s'.pages h (tabs ++ tabs') (datas ++ datas')
  within : Within sp' h (tabs ++ tabs') (datas ++ datas')
  used : sp'.used.Perm (tabs' ++ datas' ++ sp.used)
  total : sp'.total ≤ sp.total + (tabs'.length + datas'.length)
  own : sp'.own = sp.own
  free : sp'.free.length ≤ sp.free.length
  others : ∀ q ∈ sp.used, q ≠ h → q ∉ tabs → s'.pages[q]? = s.pages[q]?
  header : ∀ hp, s.pages[h]? = some hp → ∃ hp', s'.pages[h]? = some hp' ∧ ∀ i, i < 24 → hp'[i]? = hp[i]?

theorem grown_nil {e : Env} {s : St} {sp : FreeSpec.State} {h : Nat} {tabs datas : List Nat} (h1 : Rep e s sp)
    (h2 : Spec.File80 s.pages h tabs datas) (h3 : Within sp h tabs datas) : Grown e s sp h tabs datas s sp [] [] :=
  ⟨h1, by simpa using h2, by simpa using h3, by simp, by simp, rfl, Nat.le_refl _, fun _ _ _ _ => rfl,
    fun hp hh => ⟨hp, hh, fun _ _ => rfl⟩⟩

theorem grown_trans {e : Env} {s s' s'' : St} {sp sp' sp'' : FreeSpec.State} {h : Nat} {tabs datas t1 d1 t2 d2 : List Nat}
    (hw : Within sp h tabs datas)
    (a : Grown e s sp h tabs datas s' sp' t1 d1) (b : Grown e s' sp' h (tabs ++ t1) (datas ++ d1) s'' sp'' t2 d2)
    (hsub : ∀ q ∈ t1, q ∉ sp.used) :
    Grown e s sp h tabs datas s'' sp'' (t1 ++ t2) (d1 ++ d2) := by
  refine ⟨b.rep, ?_, ?_, ?_, ?_, b.own.trans a.own, Nat.le_trans b.free a.free, ?_, ?_⟩
  · simpa [List.append_assoc] using b.file
  · simpa [List.append_assoc] using b.within
  · refine b.used.trans ?_
    refine (List.Perm.append_left (t2 ++ d2) a.used).trans ?_
    rw [← List.append_assoc]
    refine List.Perm.append_right _ ?_
    rw [List.perm_iff_count]
    intro x
    simp only [List.count_append]
    omega
  · have := a.total; have := b.total
    simp only [List.length_append]; omega
  · intro q hq h1 h2
    have hq' : q ∈ sp'.used := a.used.mem_iff.mpr (by simp [hq])
    rw [b.others q hq' h1 (by
      rw [List.mem_append, not_or]
      exact ⟨h2, fun hh => hsub q hh hq⟩)]
    exact a.others q hq h1 h2
  · intro hp hh
    obtain ⟨hp', a1, a2⟩ := a.header hp hh
    obtain ⟨hp'', b1, b2⟩ := b.header hp' a1
    exact ⟨hp'', b1, fun i hi => (b2 i hi).trans (a2 i hi)⟩

theorem within_alloc {sp : FreeSpec.State} {h : Nat} {tabs datas : List Nat} (hw : Within sp h tabs datas) (q : Nat)
    (hq : q ∉ sp.used) : q ∉ h :: (tabs ++ datas) := fun hh => hq (hw q hh)

theorem step_newTable {e : Env} {s : St} {sp : FreeSpec.State} {h : Nat} {tabs datas : List Nat} (hr : Rep e s sp)
    (hf : Spec.File80 s.pages h tabs datas) (hw : Within sp h tabs datas) (hsm : sp.total < 2 ^ 32)
    (hlen : datas.length = 1023 * tabs.length) (hnb : tabs.length < 1018) :
    ∃ s' sp' t, newTable e s h tabs.length = .ok (s', t) ∧ t ∉ sp.used ∧ Grown e s sp h tabs datas s' sp' [t] [] := by
  have hh : h ∈ sp.used := hw h (by simp)
  obtain ⟨s', hp, hp', tp', a1, a2, a3, a4, a5, a6, a7, a8, a9⟩ := newTable_ok hr hsm hh hnb
  obtain ⟨f1, f2, f3, f4, f5⟩ := alloc_is_fresh sp hr.sound
  have hu := alloc_used sp
  have htot := alloc_total sp
  have hnd := hf.distinct
  rw [List.nodup_cons] at hnd
  refine ⟨s', _, _, a1, f1, a2, ?_, ?_, ?_, ?_, htot.2.1, htot.2.2, ?_, ?_⟩
  · rw [List.append_nil]
    refine file80_newTable hf hlen a4 a5 a9 a8 a6 a7 ?_ (within_alloc hw _ f1)
    intro q hq
    exact a3 q (hw q (by simp [hq])) (fun x => hnd.1 (by rw [← x]; simp [hq]))
  · intro q hq
    rw [hu]
    simp only [List.append_nil, List.mem_cons, List.mem_append, List.not_mem_nil, or_false] at hq
    rcases hq with rfl | (hq | rfl) | hq
    · simp [hh]
    · simp [hw q (by simp [hq])]
    · simp
    · simp [hw q (by simp [hq])]
  · rw [hu]; simp
  · simp; exact htot.1
  · intro q hq h1 _
    exact a3 q hq h1
  · intro hp0 hh0
    rw [a4] at hh0; cases hh0
    exact ⟨hp', a5, fun i hi => a9 i (by omega)⟩

theorem step_newPage {e : Env} {s : St} {sp : FreeSpec.State} {h t : Nat} {tabs datas : List Nat} (hr : Rep e s sp)
    (hf : Spec.File80 s.pages h tabs datas) (hw : Within sp h tabs datas) (hsm : sp.total < 2 ^ 32)
    (ht : tabs[datas.length / 1023]? = some t) (hlast : datas.length / 1023 + 1 = tabs.length) :
    ∃ s' sp' d, newPage e s t (datas.length % 1023) = .ok s' ∧ Grown e s sp h tabs datas s' sp' [] [d] := by
  have hh : h ∈ sp.used := hw h (by simp)
  have htm : t ∈ tabs := List.mem_of_getElem? ht
  have htu : t ∈ sp.used := hw t (by simp [htm])
  obtain ⟨s', tp, tp', a1, a2, a3, a4, a5, a6, a7, a8⟩ := newPage_ok hr hsm htu (Nat.mod_lt datas.length (by decide))
  obtain ⟨f1, f2, f3, f4, f5⟩ := alloc_is_fresh sp hr.sound
  have hu := alloc_used sp
  have htot := alloc_total sp
  have hnd := hf.distinct
  rw [List.nodup_cons] at hnd
  have hht : h ≠ t := fun x => hnd.1 (by rw [x]; simp [htm])
  refine ⟨s', (FreeSpec.alloc sp).2, (FreeSpec.alloc sp).1, a1, a2, ?_, ?_, ?_, ?_, htot.2.1, htot.2.2, ?_, ?_⟩
  · rw [List.append_nil]
    refine file80_newPage hf ht hlast a4 a5 a6 a7 a8 ?_ (within_alloc hw _ f1)
    intro q hq hqt
    refine a3 q (hw q ?_) hqt
    rcases List.mem_cons.mp hq with rfl | hq
    · simp
    · simp [hq]
  · intro q hq
    rw [hu]
    simp only [List.append_nil, List.mem_cons, List.mem_append, List.not_mem_nil, or_false] at hq
    rcases hq with rfl | hq | hq | rfl
    · simp [hh]
    · simp [hw q (by simp [hq])]
    · simp [hw q (by simp [hq])]
    · simp
  · rw [hu]; simp
  · simp; exact htot.1
  · intro q hq _ h2
    exact a3 q hq (fun x => h2 (x ▸ htm))
  · intro hp0 hh0
    exact ⟨hp0, by rw [a3 h hh hht]; exact hh0, fun _ _ => rfl⟩

theorem grow80_ok (e : Env) (h n : Nat) : ∀ (s : St) (sp : FreeSpec.State) (tabs datas : List Nat), Rep e s sp →
    Spec.File80 s.pages h tabs datas → Within sp h tabs datas → tabs.length = (datas.length + 1022) / 1023 →
    (datas.length + n + 1022) / 1023 ≤ 1018 → sp.total + 2 * n ≤ 2 ^ 32 →
    ∃ s' sp' tabs' datas', grow80 e h n datas.length tabs.length tabs.getLast? s = .ok (s', (tabs ++ tabs').length) ∧
      Grown e s sp h tabs datas s' sp' tabs' datas' ∧ datas'.length = n ∧
      (tabs ++ tabs').length = ((datas ++ datas').length + 1022) / 1023 ∧ (∀ q ∈ tabs' ++ datas', q ∉ sp.used) ∧
      tabs'.length ≤ n := by
  induction n with
  | zero =>
    intro s sp tabs datas hr hf hw hc _ _
    exact ⟨s, sp, [], [], by simp [grow80], grown_nil hr hf hw, rfl, by simpa using hc, by simp, by simp⟩
  | succ n ih =>
    intro s sp tabs datas hr hf hw hc hroot hsm
    have hdm := Nat.div_add_mod datas.length 1023
    have hml := Nat.mod_lt datas.length (show 0 < 1023 by decide)
    have hfresh : ∀ {s' : St} {sp' : FreeSpec.State} {t1 d1 : List Nat}, Grown e s sp h tabs datas s' sp' t1 d1 →
        ∀ q ∈ t1 ++ d1, q ∉ sp.used := by
      intro s' sp' t1 d1 g q hq hqu
      have hnd := FreeSpec.sound_nodup _ g.rep.sound
      simp only [List.nodup_cons] at hnd
      have h2 := hnd.2.2
      rw [List.nodup_append] at h2
      have h3 := h2.2.1
      rw [g.used.nodup_iff, List.nodup_append] at h3
      exact h3.2.2 q hq q hqu rfl
    unfold grow80
    by_cases hz : datas.length % 1023 = 0
    · rw [if_pos hz]
      have hlen : datas.length = 1023 * tabs.length := by omega
      obtain ⟨s1, sp1, t, a1, a2, a3⟩ := step_newTable hr hf hw (by omega) hlen (by omega)
      have hf1 := a3.file
      have hw1 := a3.within
      rw [List.append_nil] at hf1 hw1
      have htot1 := a3.total
      simp only [List.length_singleton, List.length_nil] at htot1
      have ht : (tabs ++ [t])[datas.length / 1023]? = some t := by
        rw [show datas.length / 1023 = tabs.length by omega]; simp
      obtain ⟨s2, sp2, d, b1, b2⟩ := step_newPage a3.rep hf1 hw1 (by omega) ht (by simp; omega)
      have b2' : Grown e s1 sp1 h (tabs ++ [t]) (datas ++ []) s2 sp2 [] [d] := by simpa using b2
      have g := grown_trans hw a3 b2' (by simpa using a2)
      have hf2 := g.file
      have hw2 := g.within
      have htot2 := g.total
      simp only [List.append_nil, List.nil_append, List.length_singleton, List.length_nil] at hf2 hw2 htot2
      obtain ⟨s3, sp3, tabs', datas', c1, c2, c3, c4, c5, c6⟩ := ih s2 sp2 (tabs ++ [t]) (datas ++ [d]) g.rep hf2 hw2
        (by simp; omega) (by simp; omega) (by omega)
      have g3 := grown_trans hw g c2 (by
        intro q hq
        exact hfresh g q (by simp at hq ⊢; exact Or.inl hq))
      refine ⟨s3, sp3, t :: tabs', d :: datas', ?_, by simpa using g3, by simp [c3], ?_, ?_, by simp; omega⟩
      · simp only [a1, Outcome.ok_bind]
        rw [hz] at b1
        rw [b1]
        simp only [Outcome.ok_bind]
        simp only [List.length_append, List.length_singleton, List.getLast?_append, List.getLast?_singleton, Option.some_or] at c1
        rw [c1]
        simp [Nat.add_assoc, Nat.add_comm 1]
      · simp only [List.append_assoc, List.singleton_append, List.length_append, List.length_cons] at c4 ⊢
        exact c4
      · exact hfresh (by simpa using g3)
    · rw [if_neg hz]
      have hlt : datas.length / 1023 < tabs.length := by omega
      have hne : tabs ≠ [] := by rintro rfl; simp at hlt
      have hl : tabs.getLast? = some (tabs[datas.length / 1023]) := by
        rw [List.getLast?_eq_getElem?, show tabs.length - 1 = datas.length / 1023 by omega, List.getElem?_eq_getElem hlt]
      obtain ⟨s2, sp2, d, b1, g⟩ := step_newPage hr hf hw (by omega) (List.getElem?_eq_getElem hlt) (by omega)
      have hf2 := g.file
      have hw2 := g.within
      have htot2 := g.total
      simp only [List.append_nil, List.length_singleton, List.length_nil] at hf2 hw2 htot2
      obtain ⟨s3, sp3, tabs', datas', c1, c2, c3, c4, c5, c6⟩ := ih s2 sp2 tabs (datas ++ [d]) g.rep hf2 hw2
        (by simp; omega) (by simp; omega) (by omega)
      have c2' : Grown e s2 sp2 h (tabs ++ []) (datas ++ [d]) s3 sp3 tabs' datas' := by simpa using c2
      have g3 := grown_trans hw g c2' (by simp)
      refine ⟨s3, sp3, tabs', d :: datas', ?_, by simpa using g3, by simp [c3], ?_, ?_, by omega⟩
      · rw [hl]
        simp only [b1, Outcome.ok_bind]
        rw [hl] at c1
        simp only [List.length_append, List.length_singleton] at c1 ⊢
        exact c1
      · simp only [List.append_assoc, List.singleton_append, List.length_append, List.length_cons] at c4 ⊢
        exact c4
      · exact hfresh (by simpa using g3)

end Verif.Object
