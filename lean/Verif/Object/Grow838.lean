import Verif.Object.ResizeTheorems

/-! # Lemmas: growing an object of format 8.3.8 -/

namespace Verif.Object
open Verif

/-- No released page is known, so that every page handed out is appended: the state after
opening a database of format 8.3.8 (`alloc_838_appends`). -/
structure Appending (e : Env) (s : St) : Prop where
  block : s.fr.block = 1
  len : s.fr.len = 0
  full : ∀ p ∈ s.pages, p.length = e.P

/-- Only pages in `W`, page 0 (the number of pages) and new pages differ. -/
structure Ext (e : Env) (s s' : St) (W : List Nat) : Prop where
  fr : s'.fr = s.fr
  full : ∀ p ∈ s'.pages, p.length = e.P
  len : s.pages.length ≤ s'.pages.length
  frame : ∀ q, q < s.pages.length → q ≠ 0 → q ∉ W → s'.pages[q]? = s.pages[q]?

theorem Ext.appending {e : Env} {s s' : St} {W : List Nat} (h : Ext e s s' W) (ha : Appending e s) : Appending e s' :=
  ⟨by rw [h.fr]; exact ha.block, by rw [h.fr]; exact ha.len, h.full⟩

theorem Ext.trans {e : Env} {s s' s'' : St} {W W' : List Nat} (h : Ext e s s' W) (h' : Ext e s' s'' W')
    (hw : ∀ q ∈ W', q ∈ W ∨ s.pages.length ≤ q) : Ext e s s'' W := by
  refine ⟨h'.fr.trans h.fr, h'.full, Nat.le_trans h.len h'.len, ?_⟩
  intro q h1 h2 h3
  rw [h'.frame q (Nat.lt_of_lt_of_le h1 h.len) h2 (fun hh => (hw q hh).elim h3 (fun x => by omega))]
  exact h.frame q h1 h2 h3

theorem Ext.refl {e : Env} {s : St} (W : List Nat) (h : ∀ p ∈ s.pages, p.length = e.P) : Ext e s s W :=
  ⟨rfl, h, Nat.le_refl _, fun _ _ _ _ => rfl⟩

/-- A page is appended. -/
theorem alloc838 (e : Env) (s : St) (ha : Appending e s) (hP : 16 ≤ e.P) :
    ∃ s', getFree e s = .ok (s.pages.length, s') ∧ Ext e s s' [] ∧ s'.pages.length = s.pages.length + 1 ∧
      s'.pages[s.pages.length]? = some (List.replicate e.P 0) := by
  unfold getFree
  rw [if_neg (by simp [ha.block]), if_neg (by simp [ha.len])]
  unfold touch
  simp only
  rw [if_neg (by omega)]
  simp only [if_true, Bool.false_eq_true, if_false, Outcome.ok_bind]
  refine ⟨_, rfl, ⟨rfl, ?_, by simp, ?_⟩, by simp, ?_⟩
  · intro p hp
    simp only [List.mem_append, List.mem_singleton] at hp
    rcases hp with hp | hp
    · obtain ⟨i, hi⟩ := List.mem_iff_getElem?.mp hp
      rw [List.getElem?_modify] at hi
      cases hq : s.pages[i]? with
      | none => rw [hq] at hi; simp at hi
      | some q =>
        have hl := ha.full q (List.mem_of_getElem? hq)
        rw [hq] at hi
        simp only [Option.map_eq_map, Option.map_some] at hi
        cases hi
        split
        · rw [length_splice _ _ _ (by rw [length_le32]; omega)]; exact hl
        · exact hl
    · rw [hp]; simp
  · intro q h1 h2 _
    rw [List.getElem?_append_left (by rw [List.length_modify]; exact h1), List.getElem?_modify]
    simp only [if_neg (show ¬ 0 = q by omega), Option.map_eq_map, Option.map_id']
  · rw [List.getElem?_append_right (by simp)]
    simp

theorem touch_zero (e : Env) (s : St) (n : Nat) (h : s.pages[n]? = some (List.replicate e.P 0)) :
    ∃ s', touch e s n false = .ok s' ∧ s'.pages = s.pages ∧ s'.fr = s.fr := by
  have hlt := getElem?_some_lt h
  unfold touch
  rw [if_neg (by omega), if_neg (by omega), if_neg (by simp)]
  refine ⟨_, rfl, ?_, rfl⟩
  simp only
  split
  · rfl
  · apply List.ext_getElem?
    intro i
    rw [List.getElem?_set]
    split
    · rename_i hi
      subst hi
      exact h.symm
    · rfl

/-- A page is appended and handed out. -/
theorem fresh838 (e : Env) (s : St) (ha : Appending e s) (hP : 16 ≤ e.P) :
    ∃ s', freshPage e s = .ok (s.pages.length, s') ∧ Ext e s s' [] ∧ s'.pages.length = s.pages.length + 1 ∧
      s'.pages[s.pages.length]? = some (List.replicate e.P 0) := by
  obtain ⟨s1, a1, a2, a3, a4⟩ := alloc838 e s ha hP
  obtain ⟨s2, b1, b2, b3⟩ := touch_zero e s1 _ a4
  unfold freshPage
  simp only [a1, Outcome.ok_bind, b1]
  exact ⟨s2, rfl, ⟨by rw [b3]; exact a2.fr, by rw [b2]; exact a2.full, by rw [b2]; exact a2.len, by rw [b2]; exact a2.frame⟩,
    by rw [b2]; exact a3, by rw [b2]; exact a4⟩

/-- Storing in a page. -/
theorem poke838 (e : Env) (s : St) (hf : ∀ p ∈ s.pages, p.length = e.P) (n off : Nat) (b p : Bytes)
    (hp : s.pages[n]? = some p) (hb : off + b.length ≤ e.P) :
    ∃ s', poke s n off b = .ok s' ∧ Ext e s s' [n] ∧ s'.pages.length = s.pages.length ∧
      s'.pages[n]? = some (splice p off b) ∧ ∀ q, q ≠ n → s'.pages[q]? = s.pages[q]? := by
  have hl := hf p (List.mem_of_getElem? hp)
  have hoth : ∀ q, q ≠ n → (s.pages.set n (splice p off b))[q]? = s.pages[q]? :=
    fun q hq => get_set_ne _ _ _ _ (Ne.symm hq)
  refine ⟨_, poke_ok s n off b p hp (by omega), ⟨rfl, ?_, by simp, ?_⟩, by simp, get_set_eq _ _ _ (getElem?_some_lt hp), hoth⟩
  · exact set_lengths _ _ _ _ hf (by rw [length_splice _ _ _ (by omega)]; exact hl)
  · intro q _ _ h
    exact hoth q (fun hh => h (by rw [hh]; exact List.mem_singleton.mpr rfl))

/-! ## One level -/

theorem grow838one_ok (e : Env) (h : Nat) (hP : 16 ≤ e.P) (h0 : h ≠ 0) (n : Nat) : ∀ (s : St) (D : List Nat),
    Appending e s → Spec.File838One s.pages h D → 24 + 4 * (D.length + n) ≤ e.P → s.pages.length + n ≤ 2 ^ 32 →
    ∃ s', grow838one e h n D.length s = .ok s' ∧ Ext e s s' [h] ∧ s'.pages.length = s.pages.length + n ∧
      Spec.File838One s'.pages h (D ++ List.range' s.pages.length n) ∧
      ∃ hp hp', s.pages[h]? = some hp ∧ s'.pages[h]? = some hp' ∧ ∀ i, i < 24 → hp'[i]? = hp[i]? := by
  induction n with
  | zero =>
    intro s D ha hf _ _
    obtain ⟨hp, r1, r2⟩ := hf.root
    exact ⟨s, rfl, Ext.refl _ ha.full, rfl, by simpa using hf, hp, hp, r1, r1, fun _ _ => rfl⟩
  | succ n ih =>
    intro s D ha hf hroom hsm
    obtain ⟨s1, a1, a2, a3, a4⟩ := fresh838 e s ha hP
    obtain ⟨hp, r1, r2⟩ := hf.root
    have hlt := getElem?_some_lt r1
    have hh1 : s1.pages[h]? = some hp := by rw [a2.frame h hlt h0 (by simp)]; exact r1
    have hl := a2.full hp (List.mem_of_getElem? hh1)
    obtain ⟨s2, b1, b2, b3, b4, b5⟩ := poke838 e s1 a2.full h (24 + 4 * D.length) (le32 s.pages.length) hp hh1
      (by rw [length_le32]; omega)
    have hnew : h ≠ s.pages.length := by omega
    have hf2 : Spec.File838One s2.pages h (D ++ [s.pages.length]) := by
      refine ⟨⟨_, b4, ?_⟩, ?_, ?_⟩
      · intro k hk
        rw [List.length_append, List.length_singleton] at hk
        by_cases hkl : k < D.length
        · rw [word_splice_out _ _ _ _ (by rw [length_le32]; omega) (by rw [length_le32]; omega), r2 k hkl,
            List.getElem_append_left hkl]
        · have : k = D.length := by omega
          subst this
          rw [word_splice_in _ _ _ (by omega) (by omega)]
          simp
      · intro q hq
        rw [b3, a3]
        rcases List.mem_append.mp hq with hq | hq
        · have := hf.present q hq; omega
        · rw [List.mem_singleton.mp hq]; omega
      · have hd := hf.distinct
        rw [← List.cons_append, List.nodup_append]
        refine ⟨hd, by simp, ?_⟩
        intro a ha b hb hab
        rw [List.mem_singleton.mp hb] at hab
        rcases List.mem_cons.mp ha with ha | ha
        · omega
        · have := hf.present a ha; omega
    have ha2 : Appending e s2 := b2.appending (a2.appending ha)
    obtain ⟨s3, c1, c2, c3, c4, hp2, hp3, c5, c6, c7⟩ := ih s2 (D ++ [s.pages.length]) ha2 hf2
      (by rw [List.length_append, List.length_singleton]; omega) (by omega)
    have hlen : s2.pages.length = s.pages.length + 1 := by omega
    refine ⟨s3, ?_, ?_, by omega, ?_, hp, hp3, r1, c6, ?_⟩
    · unfold grow838one
      simp only [a1, Outcome.ok_bind, b1]
      rw [List.length_append, List.length_singleton] at c1
      exact c1
    · refine Ext.trans (Ext.trans ⟨a2.fr, a2.full, a2.len, fun q x y _ => a2.frame q x y (by simp)⟩ b2 (fun q hq => .inl hq)) c2
        (fun q hq => .inl hq)
    · rw [List.range'_succ]
      rw [hlen] at c4
      simpa using c4
    · intro i hi
      rw [b4] at c5; cases c5
      rw [c7 i hi]
      exact splice_get_out _ _ _ _ (by rw [length_le32]; omega) (by omega)

/-! ## Two levels -/

/-- A table is entered at the end of the root list. -/
theorem file838_newTable {pages pages' : List Bytes} {P h t : Nat} {tabs datas : List Nat}
    (hf : Spec.File838Two pages P h tabs datas) (hper : 0 < P / 4) (hfull : datas.length ≤ P / 4 * tabs.length) {hp hp' : Bytes}
    (h1 : pages[h]? = some hp) (h2 : pages'[h]? = some hp') (h3 : ∀ k, k < tabs.length → Spec.word hp' (24 + 4 * k) = Spec.word hp (24 + 4 * k))
    (h4 : Spec.word hp' (24 + 4 * tabs.length) = some t) (h5 : t < pages'.length) (hlen : pages.length ≤ pages'.length)
    (h7 : ∀ q ∈ tabs, pages'[q]? = pages[q]?) (h8 : t ∉ h :: (tabs ++ datas)) :
    Spec.File838Two pages' P h (tabs ++ [t]) datas := by
  obtain ⟨hp0, r1, r2⟩ := hf.root
  rw [h1] at r1; cases r1
  refine ⟨⟨hp', h2, ?_⟩, ?_, ?_, ?_⟩
  · intro k hk
    rw [List.length_append, List.length_singleton] at hk
    by_cases hkl : k < tabs.length
    · rw [h3 k hkl, r2 k hkl, List.getElem_append_left hkl]
    · have : k = tabs.length := by omega
      subst this
      rw [h4]; simp
  · intro k hk
    obtain ⟨t', tp, a, b, c⟩ := hf.entry k hk
    exact ⟨t', tp, by rw [List.getElem?_append_left (getElem?_some_lt a)]; exact a, by rw [h7 t' (List.mem_of_getElem? a)]; exact b, c⟩
  · intro q hq
    simp only [List.mem_append, List.mem_singleton] at hq
    rcases hq with (hq | hq) | hq
    · have := hf.present q (by simp [hq]); omega
    · rw [hq]; exact h5
    · have := hf.present q (by simp [hq]); omega
  · have hp : (h :: (tabs ++ [t] ++ datas)).Perm (t :: (h :: (tabs ++ datas))) := by
      rw [List.append_assoc]
      refine ((List.perm_middle (l₁ := tabs) (a := t) (l₂ := datas)).cons h).trans ?_
      exact List.Perm.swap _ _ _
    rw [hp.nodup_iff, List.nodup_cons]
    exact ⟨h8, hf.distinct⟩

/-- A data page is entered at the end of the last table. -/
theorem file838_newPage {pages pages' : List Bytes} {P h bl t : Nat} {tabs datas : List Nat}
    (hf : Spec.File838Two pages P h tabs datas) (hper : 0 < P / 4)
    (ht : tabs[datas.length / (P / 4)]? = some t) {tp tp' : Bytes}
    (h1 : pages[t]? = some tp) (h2 : pages'[t]? = some tp')
    (h4 : Spec.word tp' (4 * (datas.length % (P / 4))) = some bl)
    (h5 : ∀ j, j ≠ datas.length % (P / 4) → Spec.word tp' (4 * j) = Spec.word tp (4 * j))
    (h6 : ∀ q ∈ h :: tabs, q ≠ t → pages'[q]? = pages[q]?) (h7 : bl < pages'.length) (hlen : pages.length ≤ pages'.length)
    (h8 : bl ∉ h :: (tabs ++ datas)) :
    Spec.File838Two pages' P h tabs (datas ++ [bl]) := by
  obtain ⟨hp, r1, r2⟩ := hf.root
  have hnd := hf.distinct
  rw [List.nodup_cons, List.nodup_append] at hnd
  have htm := List.mem_of_getElem? ht
  have hht : h ≠ t := fun x => hnd.1 (by rw [x]; simp [htm])
  refine ⟨⟨hp, by rw [h6 h (by simp) hht]; exact r1, r2⟩, ?_, ?_, ?_⟩
  · intro k hk
    rw [List.length_append, List.length_singleton] at hk
    by_cases hkl : k < datas.length
    · obtain ⟨t', tp0, a, b, c⟩ := hf.entry k hkl
      rw [List.getElem_append_left hkl]
      by_cases htt : t' = t
      · subst htt
        rw [h1] at b; cases b
        refine ⟨t', tp', a, h2, ?_⟩
        rw [h5 _ ?_]; exact c
        intro hmod
        have hidx : k / (P / 4) = datas.length / (P / 4) := by
          have ha := getElem?_some_lt a
          have hb := getElem?_some_lt ht
          refine (List.Nodup.getElem_inj_iff hnd.2.1 (hi := ha) (hj := hb)).mp ?_
          rw [List.getElem?_eq_getElem ha] at a
          rw [List.getElem?_eq_getElem hb] at ht
          rw [Option.some.inj a, Option.some.inj ht]
        have e1 := Nat.div_add_mod k (P / 4)
        have e2 := Nat.div_add_mod datas.length (P / 4)
        rw [hidx, hmod] at e1
        omega
      · exact ⟨t', tp0, a, by rw [h6 t' (by simp [List.mem_of_getElem? a]) htt]; exact b, c⟩
    · have : k = datas.length := by omega
      subst this
      exact ⟨t, tp', ht, h2, by rw [h4]; simp⟩
  · intro q hq
    simp only [List.mem_append, List.mem_singleton] at hq
    rcases hq with hq | hq | hq
    · have := hf.present q (by simp [hq]); omega
    · have := hf.present q (by simp [hq]); omega
    · rw [hq]; exact h7
  · rw [← List.append_assoc, ← List.cons_append, List.nodup_append]
    refine ⟨hf.distinct, by simp, ?_⟩
    intro a ha b hb hab
    rw [List.mem_singleton.mp hb] at hab
    exact h8 (by rw [← hab]; exact ha)

theorem step_page838 (e : Env) (s : St) (h t : Nat) (tabs D : List Nat) (hP : 16 ≤ e.P) (ha : Appending e s)
    (hf : Spec.File838Two s.pages e.P h tabs D) (h0 : 0 ∉ h :: tabs) (ht : tabs[D.length / (e.P / 4)]? = some t)
    (hsm : s.pages.length < 2 ^ 32) :
    ∃ s1 s2, freshPage e s = .ok (s.pages.length, s1) ∧ poke s1 t (4 * (D.length % (e.P / 4))) (le32 s.pages.length) = .ok s2 ∧
      Ext e s s2 [t] ∧ s2.pages.length = s.pages.length + 1 ∧ Spec.File838Two s2.pages e.P h tabs (D ++ [s.pages.length]) ∧
      s2.pages[h]? = s.pages[h]? := by
  obtain ⟨s1, a1, a2, a3, a4⟩ := fresh838 e s ha hP
  have htm := List.mem_of_getElem? ht
  have hlt := hf.present t (by simp [htm])
  have ht0 : t ≠ 0 := fun x => h0 (by rw [← x]; simp [htm])
  have hh0 : h ≠ 0 := fun x => h0 (by rw [← x]; simp)
  have htp := List.getElem?_eq_getElem hlt
  have ht1 : s1.pages[t]? = some s.pages[t] := by rw [a2.frame t hlt ht0 (by simp)]; exact htp
  have hl := a2.full _ (List.mem_of_getElem? ht1)
  have hi : D.length % (e.P / 4) < e.P / 4 := Nat.mod_lt _ (by omega)
  have hi4 : 4 * (D.length % (e.P / 4)) + 4 ≤ e.P := by omega
  obtain ⟨s2, b1, b2, b3, b4, b5⟩ := poke838 e s1 a2.full t (4 * (D.length % (e.P / 4))) (le32 s.pages.length) _ ht1
    (by rw [length_le32]; omega)
  have hnd := hf.distinct
  rw [List.nodup_cons] at hnd
  have hht : h ≠ t := fun x => hnd.1 (by rw [x]; simp [htm])
  obtain ⟨hp, r1, r2⟩ := hf.root
  have hhl := getElem?_some_lt r1
  refine ⟨s1, s2, a1, b1, Ext.trans ⟨a2.fr, a2.full, a2.len, fun q x y _ => a2.frame q x y (by simp)⟩ b2 (fun q hq => .inl hq),
    by omega, ?_, ?_⟩
  · refine file838_newPage hf (by omega) ht htp b4 (word_splice_in _ _ _ (by omega) (by omega)) ?_ ?_ (by omega) (by omega) ?_
    · intro j hj
      exact word_splice_out _ _ _ _ (by rw [length_le32]; omega) (by rw [length_le32]; omega)
    · intro q hq hqt
      rw [b5 q hqt]
      have hql : q < s.pages.length := by
        rcases List.mem_cons.mp hq with hq | hq
        · rw [hq]; exact hhl
        · exact hf.present q (by simp [hq])
      exact a2.frame q hql (fun x => h0 (by rw [← x]; exact hq)) (by simp)
    · intro hh
      rcases List.mem_cons.mp hh with hh | hh
      · omega
      · have := hf.present _ hh; omega
  · rw [b5 h hht]
    exact a2.frame h hhl hh0 (by simp)

theorem step_table838 (e : Env) (s : St) (h : Nat) (tabs D : List Nat) (hP : 16 ≤ e.P) (ha : Appending e s)
    (hf : Spec.File838Two s.pages e.P h tabs D) (h0 : 0 ∉ h :: tabs) (hfull : D.length ≤ e.P / 4 * tabs.length)
    (hroom : 24 + 4 * tabs.length + 4 ≤ e.P) (hsm : s.pages.length < 2 ^ 32) :
    ∃ s1 s2 s3 hp hp', getFree e s = .ok (s.pages.length, s1) ∧ poke s1 h (24 + 4 * tabs.length) (le32 s.pages.length) = .ok s2 ∧
      touch e s2 s.pages.length false = .ok s3 ∧
      Ext e s s3 [h] ∧ s3.pages.length = s.pages.length + 1 ∧ Spec.File838Two s3.pages e.P h (tabs ++ [s.pages.length]) D ∧
      s.pages[h]? = some hp ∧ s3.pages[h]? = some hp' ∧ (∀ i, i < 24 → hp'[i]? = hp[i]?) := by
  obtain ⟨s1, a1, a2, a3, a4⟩ := alloc838 e s ha hP
  have hh0 : h ≠ 0 := fun x => h0 (by rw [← x]; simp)
  obtain ⟨hp, r1, r2⟩ := hf.root
  have hhl := getElem?_some_lt r1
  have hh1 : s1.pages[h]? = some hp := by rw [a2.frame h hhl hh0 (by simp)]; exact r1
  have hl := a2.full hp (List.mem_of_getElem? hh1)
  obtain ⟨s2, b1, b2, b3, b4, b5⟩ := poke838 e s1 a2.full h (24 + 4 * tabs.length) (le32 s.pages.length) hp hh1
    (by rw [length_le32]; omega)
  have hnew : s.pages.length ≠ h := by omega
  obtain ⟨s3, c1, c2, c3⟩ := touch_zero e s2 s.pages.length (by rw [b5 _ hnew]; exact a4)
  have hnd := hf.distinct
  rw [List.nodup_cons] at hnd
  refine ⟨s1, s2, s3, hp, _, a1, b1, c1, ?_, by rw [c2]; omega, ?_, r1, by rw [c2]; exact b4, ?_⟩
  · have := Ext.trans (W := [h]) ⟨a2.fr, a2.full, a2.len, fun q x y _ => a2.frame q x y (by simp)⟩ b2 (fun q hq => .inl hq)
    exact ⟨by rw [c3]; exact this.fr, by rw [c2]; exact this.full, by rw [c2]; exact this.len, by rw [c2]; exact this.frame⟩
  · rw [c2]
    refine file838_newTable hf (by omega) hfull r1 b4 ?_ (word_splice_in _ _ _ (by omega) (by omega)) (by omega) (by omega) ?_ ?_
    · intro k hk
      exact word_splice_out _ _ _ _ (by rw [length_le32]; omega) (by rw [length_le32]; omega)
    · intro q hq
      rw [b5 q (fun x => hnd.1 (by rw [← x]; simp [hq]))]
      exact a2.frame q (hf.present q (by simp [hq])) (fun x => h0 (by rw [← x]; simp [hq])) (by simp)
    · intro hh
      rcases List.mem_cons.mp hh with hh | hh
      · omega
      · have := hf.present _ hh; omega
  · intro i hi
    exact splice_get_out _ _ _ _ (by rw [length_le32]; omega) (by omega)

theorem grow838two_ok (e : Env) (h : Nat) (hP : 16 ≤ e.P) (n : Nat) : ∀ (s : St) (tabs D : List Nat) (t : Nat),
    Appending e s → Spec.File838Two s.pages e.P h tabs D → 0 ∉ h :: tabs →
    tabs.length = (D.length + e.P / 4 - 1) / (e.P / 4) → (D.length % (e.P / 4) ≠ 0 → tabs[D.length / (e.P / 4)]? = some t) →
    24 + 4 * ((D.length + n + e.P / 4 - 1) / (e.P / 4)) ≤ e.P → s.pages.length + 2 * n ≤ 2 ^ 32 →
    ∃ s' tabs' D', grow838two e h (e.P / 4) n D.length tabs.length t s = .ok (s', (tabs ++ tabs').length) ∧
      Ext e s s' (h :: tabs) ∧ Spec.File838Two s'.pages e.P h (tabs ++ tabs') (D ++ D') ∧ D'.length = n ∧
      (tabs ++ tabs').length = ((D ++ D').length + e.P / 4 - 1) / (e.P / 4) ∧
      (∀ q ∈ tabs' ++ D', s.pages.length ≤ q) ∧ s'.pages.length = s.pages.length + tabs'.length + D'.length ∧
      ∃ hp hp', s.pages[h]? = some hp ∧ s'.pages[h]? = some hp' ∧ ∀ i, i < 24 → hp'[i]? = hp[i]? := by
  have hper : 0 < e.P / 4 := by omega
  induction n with
  | zero =>
    intro s tabs D t ha hf _ hc _ _ _
    obtain ⟨hp, r1, r2⟩ := hf.root
    exact ⟨s, [], [], by simp [grow838two], Ext.refl _ ha.full, by simpa using hf, rfl, by simpa using hc, by simp, rfl, hp, hp, r1, r1, fun _ _ => rfl⟩
  | succ n ih =>
    intro s tabs D t ha hf h0 hc ht hroom hsm
    generalize hpp : e.P / 4 = per at *
    have hmod := Nat.div_add_mod D.length per
    have hml := Nat.mod_lt D.length hper
    have hceil : (D.length + 1 + per - 1) / per = D.length / per + 1 := by
      rw [show D.length + 1 + per - 1 = D.length + per by omega, Nat.add_div_right _ hper]
    by_cases hz : D.length % per = 0
    · -- a new table
      have htl : tabs.length = D.length / per := by
        rw [hc]
        have : D.length + per - 1 = (per - 1) + per * (D.length / per) := by omega
        rw [this, Nat.add_mul_div_left _ _ hper, Nat.div_eq_of_lt (by omega)]; omega
      have hfull : D.length ≤ per * tabs.length := by rw [htl]; omega
      have hmono : D.length / per + 1 ≤ (D.length + (n + 1) + per - 1) / per := by
        rw [← hceil]; exact Nat.div_le_div_right (by omega)
      obtain ⟨s1, s2, s3, hp, hp', a1, a2, a3, a4, a5, a6, a7, a8, a9⟩ := step_table838 e s h tabs D hP ha hf h0
        (by rw [hpp]; exact hfull) (by omega) (by omega)
      have ha3 := a4.appending ha
      have h03 : 0 ∉ h :: (tabs ++ [s.pages.length]) := by
        intro hh
        rw [← List.cons_append] at hh
        rcases List.mem_append.mp hh with hh | hh
        · exact h0 hh
        · have := List.mem_singleton.mp hh
          have hlt := getElem?_some_lt a7
          omega
      have htt : (tabs ++ [s.pages.length])[D.length / per]? = some s.pages.length := by
        rw [← htl]; simp
      obtain ⟨s4, s5, b1, b2, b3, b4, b5, b6⟩ := step_page838 e s3 h s.pages.length (tabs ++ [s.pages.length]) D hP ha3 a6 h03
        (by rw [hpp]; exact htt) (by omega)
      rw [hpp] at b2
      obtain ⟨s6, tabs', D', c1, c2, c3, c4, c5, c6, cc, hq, hq', c7, c8, c9⟩ := ih s5 (tabs ++ [s.pages.length]) (D ++ [s3.pages.length])
        s.pages.length (b3.appending ha3) b5 h03
        (by simp only [List.length_append, List.length_singleton]; rw [hceil, htl])
        (by
          intro _
          simp only [List.length_append, List.length_singleton]
          by_cases hone : per = 1
          · subst hone
            omega
          · rw [show (D.length + 1) / per = D.length / per from (next_same D.length per hper (by omega)).1]
            exact htt)
        (by simp only [List.length_append, List.length_singleton]
            rw [show D.length + 1 + n + per - 1 = D.length + (n + 1) + per - 1 by omega]; exact hroom)
        (by omega)
      refine ⟨s6, s.pages.length :: tabs', s3.pages.length :: D', ?_, ?_, ?_, ?_, ?_, ?_, by simp only [List.length_cons]; omega, hp, hq', a7, c8, ?_⟩
      · unfold grow838two
        rw [if_pos hz]
        simp only [a1, Outcome.ok_bind, a2, a3, b1, b2]
        simp only [List.length_append, List.length_singleton] at c1
        rw [c1]
        congr 2
        simp; omega
      · have e1 : Ext e s s3 (h :: tabs) := ⟨a4.fr, a4.full, a4.len, fun q x y z => a4.frame q x y (fun w => z (by
          rw [List.mem_singleton.mp w]; simp))⟩
        refine Ext.trans (Ext.trans e1 b3 ?_) c2 ?_
        · intro q hq
          exact .inr (by rw [List.mem_singleton.mp hq]; exact Nat.le_refl _)
        · intro q hq
          rw [← List.cons_append] at hq
          rcases List.mem_append.mp hq with hq | hq
          · exact .inl hq
          · exact .inr (by rw [List.mem_singleton.mp hq]; exact Nat.le_refl _)
      · simpa using c3
      · simp [c4]
      · simpa using c5
      · intro q hq
        simp only [List.cons_append, List.mem_cons, List.mem_append] at hq
        rcases hq with hq | hq | hq | hq
        · omega
        · have := c6 q (by simp [hq]); omega
        · omega
        · have := c6 q (by simp [hq]); omega
      · intro i hi
        rw [b6, a8] at c7
        cases c7
        rw [c9 i hi, a9 i hi]
    · -- the last table
      have htl : tabs.length = D.length / per + 1 := by
        rw [hc]
        have : D.length + per - 1 = (D.length % per - 1) + per * (D.length / per + 1) := by
          rw [Nat.mul_add, Nat.mul_one]; omega
        rw [this, Nat.add_mul_div_left _ _ hper, Nat.div_eq_of_lt (by omega)]; omega
      have ht' := ht hz
      obtain ⟨s4, s5, b1, b2, b3, b4, b5, b6⟩ := step_page838 e s h t tabs D hP ha hf h0 (by rw [hpp]; exact ht') (by omega)
      rw [hpp] at b2
      obtain ⟨s6, tabs', D', c1, c2, c3, c4, c5, c6, cc, hq, hq', c7, c8, c9⟩ := ih s5 tabs (D ++ [s.pages.length])
        t (b3.appending ha) b5 h0
        (by simp only [List.length_append, List.length_singleton]; rw [hceil, htl])
        (by
          intro hne
          simp only [List.length_append, List.length_singleton] at hne ⊢
          by_cases hw : D.length % per + 1 < per
          · rw [(next_same D.length per hper hw).1]
            exact ht'
          · exact absurd (next_wrap D.length per hper (by omega)).2 hne)
        (by simp only [List.length_append, List.length_singleton]
            rw [show D.length + 1 + n + per - 1 = D.length + (n + 1) + per - 1 by omega]; exact hroom)
        (by omega)
      refine ⟨s6, tabs', s.pages.length :: D', ?_, ?_, ?_, ?_, ?_, ?_, by simp only [List.length_cons]; omega, hq, hq', by rw [← b6]; exact c7, c8, c9⟩
      · unfold grow838two
        rw [if_neg hz]
        simp only [b1, Outcome.ok_bind, b2]
        simp only [List.length_append, List.length_singleton] at c1
        rw [c1]
        simp
      · have e1 : Ext e s s5 (h :: tabs) := ⟨b3.fr, b3.full, b3.len, fun q x y z => b3.frame q x y (fun w => z (by
          rw [List.mem_singleton.mp w]; simp [List.mem_of_getElem? ht']))⟩
        exact Ext.trans e1 c2 (fun q hq => .inl hq)
      · simpa using c3
      · simp [c4]
      · simpa using c5
      · intro q hq
        simp only [List.mem_cons, List.mem_append] at hq
        rcases hq with hq | hq | hq
        · have := c6 q (by simp [hq]); omega
        · omega
        · have := c6 q (by simp [hq]); omega

end Verif.Object
