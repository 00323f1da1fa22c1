import Verif.Template.TestLemmas
import Verif.Object.FreeLemmas

/-! # Lemmas about repairing placement pages -/

namespace Verif.Template
open Verif Record Object

set_option maxRecDepth 2000

/-- The word at an offset of a page. -/
def wordOf (pages : List Bytes) (n off : Nat) : Option Nat := pages[n]?.bind (fun p => Object.Spec.word p off)

theorem peek_of {s : St} {n off v : Nat} (h : wordOf s.pages n off = some v) : peek s n off = .ok v := by
  unfold wordOf at h
  unfold peek
  cases hp : s.pages[n]? with
  | none => rw [hp] at h; simp at h
  | some p => rw [hp] at h; exact (rd32_word p off v).mpr h

theorem wordOf_lt {pages : List Bytes} {n off v : Nat} (h : wordOf pages n off = some v) : v < 2 ^ 32 := by
  unfold wordOf at h
  cases hp : pages[n]? with
  | none => rw [hp] at h; simp at h
  | some p =>
    rw [hp] at h
    simp only [Option.bind_some, Object.Spec.word] at h
    cases h0 : p[off]? <;> simp only [h0, Option.bind_eq_bind, Option.bind_none, reduceCtorEq, Option.bind_some] at h
    cases h1 : p[off + 1]? <;> simp only [h1, Option.bind_none, reduceCtorEq, Option.bind_some] at h
    cases h2 : p[off + 2]? <;> simp only [h2, Option.bind_none, reduceCtorEq, Option.bind_some] at h
    cases h3 : p[off + 3]? <;> simp only [h3, Option.bind_none, reduceCtorEq, Option.bind_some] at h
    rename_i a b c d
    have ha := a.toNat_lt; have hb := b.toNat_lt; have hc := c.toNat_lt; have hd := d.toNat_lt
    simp only [Option.pure_def, Option.some.injEq] at h
    omega

/-- Storing a word in a page of 4096 bytes. -/
theorem poke_word (s : St) (n off v : Nat) (hn : n < s.pages.length) (hs : ∀ p ∈ s.pages, p.length = 4096) (ho : off + 4 ≤ 4096)
    (hv : v < 2 ^ 32) : ∃ s', poke s n off (le32 v) = .ok s' ∧ s'.pages.length = s.pages.length ∧
      (∀ p ∈ s'.pages, p.length = 4096) ∧ (∀ m, m ≠ n → s'.pages[m]? = s.pages[m]?) ∧
      wordOf s'.pages n off = some v ∧
      ∀ off', (off' + 4 ≤ off ∨ off + 4 ≤ off') → wordOf s'.pages n off' = wordOf s.pages n off' := by
  have hp : s.pages[n]? = some s.pages[n] := List.getElem?_eq_getElem hn
  have hl : s.pages[n].length = 4096 := hs _ (List.getElem_mem _)
  have hb : off + (le32 v).length ≤ s.pages[n].length := by rw [length_le32, hl]; exact ho
  have he : ({ s with pages := s.pages.set n (splice s.pages[n] off (le32 v)) } : St).pages[n]? =
      some (splice s.pages[n] off (le32 v)) := get_set_eq _ _ _ hn
  refine ⟨_, poke_ok s n off (le32 v) _ hp hb, ?_, ?_, ?_, ?_, ?_⟩
  · exact List.length_set
  · intro p h
    rcases List.mem_or_eq_of_mem_set h with h | h
    · exact hs p h
    · rw [h, length_splice _ _ _ hb, hl]
  · intro m hm
    exact get_set_ne _ _ _ _ (fun e => hm e.symm)
  · unfold wordOf
    rw [he]
    exact word_splice_in _ _ _ (by rw [hl]; exact ho) hv
  · intro off' hd
    unfold wordOf
    rw [he, hp]
    exact word_splice_out _ _ _ _ hb (by rw [length_le32]; exact hd)

/-- State in the course of the repair: pages before `i` have been looked at. -/
structure Mid (file : List Bytes) (fs : List Field) (rlen block n : Nat) (tab : Nat → Nat) (d : Nat → Nat) (s : St)
    (i : Nat) (D : Nat → Nat) : Prop where
  len : s.pages.length = file.length
  size : ∀ p ∈ s.pages, p.length = 4096
  other : ∀ m, (∀ k, k * 1023 < n → m ≠ tab k) → s.pages[m]? = file[m]?
  words : ∀ m, m < n → wordOf s.pages (tab (m / 1023)) (4 + 4 * (m % 1023)) = some (D m)
  done : ∀ m, m < i → Spec.Repaired file fs rlen m (d m) (D m)
  todo : ∀ m, i ≤ m → m < n → D m = d m
  counts : ∀ k, k * 1023 < i → wordOf s.pages (tab k) 0 = some (min (n - k * 1023) 1023)

theorem good_lt {file : List Bytes} {fs : List Field} {rlen i r : Nat} (h : Spec.Good file fs rlen i r) : r < file.length := by
  obtain ⟨_, p, hp, _⟩ := h
  exact getElem?_some_lt hp

theorem fixPage_ok {file : List Bytes} {fs : List Field} {rlen block n : Nat} {tab d D : Nat → Nat} {s : St} {i : Nat} {tt : Tmpl}
    (hpl : Spec.Placed file block n tab) (ht : Agrees tt fs rlen) (hr : 0 < rlen)
    (hlen : file.length < 2 ^ 32) (hi : i < n) (hm : Mid file fs rlen block n tab d s i D)
    (hc : i % 1023 = 0 → wordOf s.pages (tab (i / 1023)) 0 = some (min (n - i) 1023)) :
    (fixPage file tt rlen s (tab (i / 1023)) i (i % 1023) 4096 = .throw ∧ ∀ r, ¬ Spec.Good file fs rlen i r) ∨
    ∃ s' D', fixPage file tt rlen s (tab (i / 1023)) i (i % 1023) 4096 = .ok s' ∧
      Mid file fs rlen block n tab d s' (i + 1) D' := by
  have hn := hpl.small
  have hk : i / 1023 * 1023 < n := by omega
  have hT := hpl.tabs _ hk
  have hi' : i < 1048576 := by omega
  have hD : D i = d i := hm.todo i (Nat.le_refl _) hi
  have hw : wordOf s.pages (tab (i / 1023)) (4 + 4 * (i % 1023)) = some (d i) := by rw [← hD]; exact hm.words i hi
  have hcounts : ∀ k, k * 1023 < i + 1 → wordOf s.pages (tab k) 0 = some (min (n - k * 1023) 1023) := by
    intro k hk
    by_cases h : k * 1023 = i
    · have h1 : i % 1023 = 0 := by omega
      have h2 : i / 1023 = k := by omega
      have := hc h1
      rw [h2, ← h] at this
      exact this
    · exact hm.counts k (Nat.lt_of_le_of_ne (Nat.le_of_lt_succ hk) h)
  have hstay : Spec.Repaired file fs rlen i (d i) (d i) → ∃ s' D', (Outcome.ok s : Outcome St) = .ok s' ∧
      Mid file fs rlen block n tab d s' (i + 1) D' := by
    intro hrep
    refine ⟨s, D, rfl, hm.len, hm.size, hm.other, hm.words, ?_, fun m h1 h2 => hm.todo m (by omega) h2, hcounts⟩
    intro m h1
    by_cases h : m = i
    · subst h; rw [hD]; exact hrep
    · exact hm.done m (by omega)
  unfold fixPage
  rw [peek_of hw]
  simp only [Outcome.ok_bind]
  obtain ⟨o, eo, ho⟩ : ∃ o, inPlace file tt rlen s (d i) i 4096 = .ok o ∧ (o = true ↔ Spec.Good file fs rlen i (d i)) := by
    unfold inPlace
    by_cases hbad : d i < 5 ∨ d i ≥ s.pages.length
    · rw [if_pos hbad]
      refine ⟨false, rfl, fun h => by simp at h, fun h => ?_⟩
      have h1 := h.1
      have h2 := good_lt h
      rw [hm.len] at hbad
      omega
    · rw [if_neg hbad]
      rw [hm.len] at hbad
      have hp : file[d i]? = some (file[d i]'(by omega)) := List.getElem?_eq_getElem (by omega)
      obtain ⟨r, er, h⟩ := testBlock_ok file (d i) _ tt fs i rlen hp (hpl.size _ (List.getElem_mem _)) ht hr hi'
      refine ⟨r, er, ?_⟩
      rw [h]
      constructor
      · exact fun h1 => ⟨by omega, _, hp, h1⟩
      · rintro ⟨_, p, h1, h2⟩
        rw [hp] at h1; injection h1 with h1; rw [h1]; exact h2
  rw [eo]
  simp only [Outcome.ok_bind]
  cases hoc : o with
  | true =>
    rw [if_pos rfl]
    exact Or.inr (hstay (Or.inl ⟨ho.mp hoc, rfl⟩))
  | false =>
    rw [if_neg (by simp)]
    have hng : ¬ Spec.Good file fs rlen i (d i) := fun h => by have := ho.mpr h; rw [hoc] at this; simp at this
    have hb5 := hpl.start
    obtain ⟨hp, hroot, _⟩ := hpl.root
    have hbl := getElem?_some_lt hroot
    obtain ⟨bk, eb, hnd, hmem⟩ := candidates_ok file tt fs i rlen hpl.size ht hr hi' (s.pages.length - 5) 5 (by rw [hm.len]; omega)
    have hgood : ∀ r, r ∈ bk ↔ Spec.Good file fs rlen i r := by
      intro r
      rw [hmem r]
      constructor
      · rintro ⟨h1, _, h3⟩; exact ⟨h1, h3⟩
      · intro h; exact ⟨h.1, by have := good_lt h; rw [hm.len]; omega, h.2⟩
    rw [eb]
    simp only [Outcome.ok_bind]
    match bk, hnd, hgood with
    | [], _, hgood => exact Or.inl ⟨rfl, fun r h => by have := (hgood r).mpr h; simp at this⟩
    | [r], _, hgood =>
      right
      have hgr := (hgood r).mp (List.mem_singleton_self r)
      have hrl := good_lt hgr
      obtain ⟨s', e', h1, h2, h3, h4, h5⟩ := poke_word s (tab (i / 1023)) (4 + 4 * (i % 1023)) r (by rw [hm.len]; exact hT.2.1)
        hm.size (by omega) (by omega)
      have hwo : ∀ k off, k * 1023 < n → (k = i / 1023 → off + 4 ≤ 4 + 4 * (i % 1023) ∨ 4 + 4 * (i % 1023) + 4 ≤ off) →
          wordOf s'.pages (tab k) off = wordOf s.pages (tab k) off := by
        intro k off hkn hoff
        by_cases hkk : k = i / 1023
        · rw [hkk]; exact h5 off (hoff hkk)
        · unfold wordOf
          rw [h3 _ (fun e => hkk (hpl.diff _ _ hkn hk e))]
      refine ⟨s', fun m => if m = i then r else D m, e', h1.trans hm.len, h2, ?_, ?_, ?_, ?_, ?_⟩
      · intro m hmt
        rw [h3 m (hmt _ hk)]
        exact hm.other m hmt
      · intro m hmn
        by_cases h : m = i
        · subst h; rw [if_pos rfl]; exact h4
        · have hoff : m / 1023 = i / 1023 → 4 + 4 * (m % 1023) + 4 ≤ 4 + 4 * (i % 1023) ∨ 4 + 4 * (i % 1023) + 4 ≤ 4 + 4 * (m % 1023) := by
            intro e1
            have hne : m % 1023 ≠ i % 1023 := by
              intro e2
              have a1 := Nat.div_add_mod m 1023
              have a2 := Nat.div_add_mod i 1023
              rw [e1, e2, a2] at a1
              exact h a1.symm
            generalize m % 1023 = x at hne
            generalize i % 1023 = y at hne
            clear * - hne
            omega
          rw [if_neg h, hwo _ _ (Nat.lt_of_le_of_lt (Nat.div_mul_le_self ..) hmn) hoff]
          exact hm.words m hmn
      · intro m hmi
        by_cases h : m = i
        · subst h; rw [if_pos rfl]
          refine Or.inr (Or.inl ⟨hng, hgr, fun x hx => ?_⟩)
          have := (hgood x).mpr hx
          simpa using this
        · rw [if_neg h]; exact hm.done m (by omega)
      · intro m h1 h2
        rw [if_neg (by omega)]; exact hm.todo m (by omega) h2
      · intro k hki
        rw [hwo k 0 (Nat.lt_of_lt_of_le hki hi) (fun _ => Or.inl (Nat.le_add_right _ _))]
        exact hcounts k hki
    | r :: r' :: rest, hnd, hgood =>
      right
      refine hstay (Or.inr (Or.inr ⟨hng, ⟨r, r', ?_, (hgood r).mp (by simp), (hgood r').mp (by simp)⟩, rfl⟩))
      intro e
      subst e
      simp at hnd

theorem openTab_ok {file : List Bytes} {fs : List Field} {rlen block n : Nat} {tab d D : Nat → Nat} {s : St} {i : Nat} (e : Env)
    (hpl : Spec.Placed file block n tab) (hi : i < n) (h0 : i % 1023 = 0) (hm : Mid file fs rlen block n tab d s i D) :
    ∃ s', openTab e s block (i / 1023) ((n - i) * 4096) = .ok (s', tab (i / 1023)) ∧ Mid file fs rlen block n tab d s' i D ∧
      wordOf s'.pages (tab (i / 1023)) 0 = some (min (n - i) 1023) := by
  have hn := hpl.small
  have hk : i / 1023 * 1023 < n := by omega
  obtain ⟨hp, hroot, _, _, htab⟩ := hpl.root
  have hT := hpl.tabs _ hk
  have hroot' : s.pages[block]? = some hp := by
    rw [hm.other block (fun k hk' e => (hpl.tabs k hk').2.2 e.symm)]; exact hroot
  have hw : wordOf s.pages block (24 + 4 * (i / 1023)) = some (tab (i / 1023)) := by
    unfold wordOf; rw [hroot']; exact htab _ hk
  unfold openTab
  rw [if_neg (by omega), peek_of hw]
  simp only [Outcome.ok_bind]
  have hbad : decide (tab (i / 1023) < 5 ∨ tab (i / 1023) ≥ s.pages.length) = false := by
    rw [hm.len]; simp; omega
  rw [hbad]
  simp only [Bool.false_eq_true, if_false, Bool.not_false]
  rw [touch_read e s _ (by rw [hm.len]; exact hT.2.1)]
  simp only [Outcome.ok_bind]
  have hmin : min (((n - i) * 4096 + 4095) / 4096) 1023 = min (n - i) 1023 := by omega
  rw [hmin]
  have hpg : s.pages[tab (i / 1023)]? = some (s.pages[tab (i / 1023)]'(by rw [hm.len]; exact hT.2.1)) := List.getElem?_eq_getElem _
  obtain ⟨c, hc⟩ := word_some (s.pages[tab (i / 1023)]'(by rw [hm.len]; exact hT.2.1)) 0
    (by rw [hm.size _ (List.getElem_mem _)]; omega)
  have hcw : wordOf s.pages (tab (i / 1023)) 0 = some c := by unfold wordOf; rw [hpg]; exact hc
  unfold setCount
  rw [peek_of hcw]
  simp only [Outcome.ok_bind]
  by_cases hcc : min (n - i) 1023 = c
  · rw [if_neg (by simpa using hcc)]
    exact ⟨s, rfl, hm, by rw [hcc]; exact hcw⟩
  · rw [if_pos hcc]
    obtain ⟨s', e', h1, h2, h3, h4, h5⟩ := poke_word s (tab (i / 1023)) 0 (min (n - i) 1023) (by rw [hm.len]; exact hT.2.1)
      hm.size (by omega) (by omega)
    have hwo : ∀ k off, k * 1023 < n → (k = i / 1023 → 4 ≤ off) →
        wordOf s'.pages (tab k) off = wordOf s.pages (tab k) off := by
      intro k off hkn hoff
      by_cases hkk : k = i / 1023
      · rw [hkk]; exact h5 off (Or.inr (by have := hoff hkk; omega))
      · unfold wordOf
        rw [h3 _ (fun e => hkk (hpl.diff _ _ hkn hk e))]
    refine ⟨s', by rw [e']; rfl, ⟨h1.trans hm.len, h2, ?_, ?_, hm.done, hm.todo, ?_⟩, h4⟩
    · intro m hmt
      rw [h3 m (hmt _ hk)]; exact hm.other m hmt
    · intro m hmn
      rw [hwo _ _ (Nat.lt_of_le_of_lt (Nat.div_mul_le_self ..) hmn) (fun _ => Nat.le_add_right _ _)]; exact hm.words m hmn
    · intro k hki
      have hne : k ≠ i / 1023 := by
        intro e1
        rw [e1] at hki
        omega
      rw [hwo k 0 (Nat.lt_trans hki hi) (fun e1 => absurd e1 hne)]; exact hm.counts k hki

theorem fixLoop_ok {file : List Bytes} {fs : List Field} {rlen block n : Nat} {tab d : Nat → Nat} {tt : Tmpl} (e : Env)
    (hpl : Spec.Placed file block n tab) (ht : Agrees tt fs rlen) (hr : 0 < rlen) (hlen : file.length < 2 ^ 32) :
    ∀ (fuel : Nat) (s : St) (i k ca : Nat) (D : Nat → Nat), i ≤ n → n - i ≤ fuel →
      k = (i + 1022) / 1023 → (i % 1023 ≠ 0 → ca = tab (i / 1023)) → Mid file fs rlen block n tab d s i D →
      (fixLoop e file tt rlen block fuel s i (i % 1023) k ca ((n - i) * 4096) = .throw ∧
        ∃ m, m < n ∧ ∀ r, ¬ Spec.Good file fs rlen m r) ∨
      ∃ s' D', fixLoop e file tt rlen block fuel s i (i % 1023) k ca ((n - i) * 4096) = .ok s' ∧
        Mid file fs rlen block n tab d s' n D' := by
  intro fuel
  induction fuel with
  | zero =>
    intro s i k ca D h1 h2 _ _ hm
    have : i = n := by omega
    subst this
    exact Or.inr ⟨s, D, rfl, hm⟩
  | succ fuel ih =>
    intro s i k ca D h1 h2 hk hca hm
    unfold fixLoop
    by_cases hin : i = n
    · subst hin
      rw [if_pos (by omega)]
      exact Or.inr ⟨s, D, rfl, hm⟩
    · rw [if_neg (by omega)]
      have hi : i < n := by omega
      obtain ⟨s1, e1, hm1, hc1⟩ : ∃ s1, nextTab e s block (i % 1023) k ca ((n - i) * 4096) = .ok (s1, tab (i / 1023), (i + 1 + 1022) / 1023) ∧
          Mid file fs rlen block n tab d s1 i D ∧ (i % 1023 = 0 → wordOf s1.pages (tab (i / 1023)) 0 = some (min (n - i) 1023)) := by
        unfold nextTab
        by_cases h0 : i % 1023 = 0
        · rw [if_pos h0]
          obtain ⟨s1, e1, hm1, hc1⟩ := openTab_ok e hpl hi h0 hm
          have hk' : k = i / 1023 := by omega
          rw [hk', e1]
          refine ⟨s1, ?_, hm1, fun _ => hc1⟩
          simp only [Outcome.ok_bind]
          have : i / 1023 + 1 = (i + 1 + 1022) / 1023 := by omega
          rw [this]
        · rw [if_neg h0, hca h0]
          have : k = (i + 1 + 1022) / 1023 := by omega
          rw [this]
          exact ⟨s, rfl, hm, fun h => absurd h h0⟩
      rw [e1]
      simp only [Outcome.ok_bind]
      have hmin : min 4096 ((n - i) * 4096) = 4096 := by omega
      rw [hmin]
      rcases fixPage_ok hpl ht hr hlen hi hm1 hc1 with ⟨e2, h3⟩ | ⟨s2, D2, e2, hm2⟩
      · left
        rw [e2]
        exact ⟨rfl, i, hi, h3⟩
      · rw [e2]
        simp only [Outcome.ok_bind]
        have hj : (if i % 1023 + 1 ≥ 1023 then 0 else i % 1023 + 1) = (i + 1) % 1023 := by split <;> omega
        have hl : (n - i) * 4096 - 4096 = (n - (i + 1)) * 4096 := by omega
        rw [hj, hl]
        exact ih s2 (i + 1) _ _ D2 (by omega) (by omega) rfl (by
          intro h
          have : (i + 1) / 1023 = i / 1023 := by omega
          rw [this]) hm2

end Verif.Template
