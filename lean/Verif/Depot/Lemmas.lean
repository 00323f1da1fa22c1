import Verif.Depot.Spec

/-! # Helper lemmas: exporting a version -/

namespace Verif.Depot
open Verif Verif.Depot.Spec

/-! ## External data -/

/-- The state of `reces` and `extnames` after the records of one object. -/
def collectExts (fold : Bytes → Bytes) (ver lastver : Int) : List Ext → List Ext → List Bytes → List Ext × List Bytes
  | [], reces, names => (reces, names)
  | e :: es, reces, names =>
    collectExts fold ver lastver es (if e.ver ≤ ver ∧ e.packed then putRec fold e reces else reces)
      (if e.ver = lastver then names ++ [e.name] else names)

theorem takeExts_eq (fold : Bytes → Bytes) (ver lastver : Int) (cur : Nat) (l : List Ext) (hs : ExtOrder l)
    (reces : List Ext) (names : List Bytes) :
    takeExts fold ver lastver cur l reces names = (l.filter (fun e => e.obj > cur),
      collectExts fold ver lastver (l.filter (fun e => e.obj = cur)) reces names) := by
  induction l generalizing reces names with
  | nil => rfl
  | cons e l ih =>
    have hs' := List.pairwise_cons.1 hs
    rw [takeExts]
    by_cases h1 : e.obj > cur
    · rw [if_pos h1]
      have hall : ∀ f ∈ e :: l, f.obj > cur := by
        intro f hf
        rcases List.mem_cons.1 hf with rfl | hf
        · exact h1
        · exact Nat.lt_of_lt_of_le h1 (hs'.1 f hf)
      rw [List.filter_eq_self.2 (fun f hf => by simpa using hall f hf),
        List.filter_eq_nil_iff.2 (fun f hf => by have := hall f hf; simp; omega)]
      rfl
    · rw [if_neg h1, List.filter_cons_of_neg (by simpa using h1)]
      by_cases h2 : e.obj = cur
      · rw [if_pos h2, ih hs'.2, List.filter_cons_of_pos (by simpa using h2)]
        rfl
      · rw [if_neg h2, ih hs'.2, List.filter_cons_of_neg (by simpa using h2)]

theorem mem_putRec (fold : Bytes → Bytes) (e : Ext) (rs : List Ext)
    (hu : rs.Pairwise (fun a b => fold a.name ≠ fold b.name)) (x : Ext) :
    x ∈ putRec fold e rs ↔ x = e ∨ (x ∈ rs ∧ fold x.name ≠ fold e.name) := by
  induction rs with
  | nil => simp [putRec]
  | cons r rs ih =>
    have hu' := List.pairwise_cons.1 hu
    rw [putRec]
    by_cases h : fold e.name = fold r.name
    · rw [if_pos h, List.mem_cons, List.mem_cons]
      constructor
      · rintro (rfl | hx)
        · exact Or.inl rfl
        · exact Or.inr ⟨Or.inr hx, fun he => hu'.1 x hx (by rw [he, h])⟩
      · rintro (rfl | ⟨rfl | hx, hn⟩)
        · exact Or.inl rfl
        · exact absurd h.symm hn
        · exact Or.inr hx
    · rw [if_neg h, List.mem_cons, ih hu'.2, List.mem_cons]
      constructor
      · rintro (rfl | rfl | ⟨hx, hn⟩)
        · exact Or.inr ⟨Or.inl rfl, fun e' => h e'.symm⟩
        · exact Or.inl rfl
        · exact Or.inr ⟨Or.inr hx, hn⟩
      · rintro (rfl | ⟨rfl | hx, hn⟩)
        · exact Or.inr (Or.inl rfl)
        · exact Or.inl rfl
        · exact Or.inr (Or.inr ⟨hx, hn⟩)

theorem putRec_unique (fold : Bytes → Bytes) (e : Ext) (rs : List Ext)
    (hu : rs.Pairwise (fun a b => fold a.name ≠ fold b.name)) :
    (putRec fold e rs).Pairwise (fun a b => fold a.name ≠ fold b.name) := by
  induction rs with
  | nil => simp [putRec]
  | cons r rs ih =>
    have hu' := List.pairwise_cons.1 hu
    rw [putRec]
    by_cases h : fold e.name = fold r.name
    · rw [if_pos h]
      exact List.pairwise_cons.2 ⟨fun x hx => by rw [h]; exact hu'.1 x hx, hu'.2⟩
    · rw [if_neg h]
      refine List.pairwise_cons.2 ⟨fun x hx => ?_, ih hu'.2⟩
      rcases (mem_putRec fold e rs hu'.2 x).1 hx with rfl | ⟨hx, _⟩
      · exact fun e' => h e'.symm
      · exact hu'.1 x hx

/-- The last of its name. -/
def LastNamed (fold : Bytes → Bytes) (ver : Int) (l : List Ext) (e : Ext) : Prop :=
  ∃ a b, l = a ++ e :: b ∧ e.ver ≤ ver ∧ e.packed = true ∧
    ∀ f ∈ b, f.ver ≤ ver → f.packed = true → fold f.name ≠ fold e.name

theorem collect_names (fold : Bytes → Bytes) (ver lastver : Int) (l : List Ext) (reces : List Ext) (names : List Bytes) :
    (collectExts fold ver lastver l reces names).2 = names ++ (l.filter (fun e => e.ver = lastver)).map (·.name) := by
  induction l generalizing reces names with
  | nil => simp [collectExts]
  | cons e l ih =>
    rw [collectExts, ih]
    by_cases h : e.ver = lastver <;> simp [h]

theorem collect_reces (fold : Bytes → Bytes) (ver lastver : Int) (l done : List Ext) (reces : List Ext) (names : List Bytes)
    (hu : reces.Pairwise (fun a b => fold a.name ≠ fold b.name)) (hm : ∀ e, e ∈ reces ↔ LastNamed fold ver done e) :
    (collectExts fold ver lastver l reces names).1.Pairwise (fun a b => fold a.name ≠ fold b.name) ∧
    ∀ e, e ∈ (collectExts fold ver lastver l reces names).1 ↔ LastNamed fold ver (done ++ l) e := by
  induction l generalizing done reces names with
  | nil => exact ⟨hu, by simpa [collectExts] using hm⟩
  | cons x l ih =>
    rw [collectExts, show done ++ x :: l = (done ++ [x]) ++ l by simp]
    by_cases hx : x.ver ≤ ver ∧ x.packed = true
    · rw [if_pos hx]
      refine ih (done ++ [x]) _ _ (putRec_unique fold x reces hu) (fun e => ?_)
      rw [mem_putRec fold x reces hu, hm]
      constructor
      · rintro (rfl | ⟨⟨a, b, h1, h2, h3, h4⟩, hn⟩)
        · exact ⟨done, [], rfl, hx.1, hx.2, fun f hf => by cases hf⟩
        · refine ⟨a, b ++ [x], by rw [h1]; simp, h2, h3, fun f hf hv hp => ?_⟩
          rcases List.mem_append.1 hf with hf | hf
          · exact h4 f hf hv hp
          · rw [List.mem_singleton.1 hf]; exact fun e' => hn e'.symm
      · rintro ⟨a, b, h1, h2, h3, h4⟩
        rcases List.eq_nil_or_concat b with rfl | ⟨b', y, rfl⟩
        · obtain ⟨_, h⟩ := List.append_inj' h1 rfl
          exact Or.inl (List.cons.inj h).1.symm
        · right
          rw [List.concat_eq_append] at h1 h4
          have h1' : done ++ [x] = (a ++ e :: b') ++ [y] := by rw [h1]; simp
          obtain ⟨hd, hy⟩ := List.append_inj' h1' rfl
          have hy := (List.cons.inj hy).1
          refine ⟨⟨a, b', hd, h2, h3, fun f hf => h4 f (List.mem_append_left _ hf)⟩, ?_⟩
          have := h4 y (by simp) (by rw [← hy]; exact hx.1) (by rw [← hy]; exact hx.2)
          rw [hy]; exact fun e' => this e'.symm
    · rw [if_neg hx]
      refine ih (done ++ [x]) _ _ hu (fun e => ?_)
      rw [hm]
      constructor
      · rintro ⟨a, b, h1, h2, h3, h4⟩
        refine ⟨a, b ++ [x], by rw [h1]; simp, h2, h3, fun f hf hv hp => ?_⟩
        rcases List.mem_append.1 hf with hf | hf
        · exact h4 f hf hv hp
        · rw [List.mem_singleton.1 hf] at hv hp; exact absurd ⟨hv, hp⟩ hx
      · rintro ⟨a, b, h1, h2, h3, h4⟩
        rcases List.eq_nil_or_concat b with rfl | ⟨b', y, rfl⟩
        · obtain ⟨_, h⟩ := List.append_inj' h1 rfl
          rw [(List.cons.inj h).1] at hx
          exact absurd ⟨h2, h3⟩ hx
        · rw [List.concat_eq_append] at h1 h4
          have h1' : done ++ [x] = (a ++ e :: b') ++ [y] := by rw [h1]; simp
          obtain ⟨hd, _⟩ := List.append_inj' h1' rfl
          exact ⟨a, b', hd, h2, h3, fun f hf => h4 f (List.mem_append_left _ hf)⟩

/-- Splitting a filtered list. -/
theorem filter_split {α : Type} (p : α → Bool) (l a : List α) (e : α) (b : List α) (h : l.filter p = a ++ e :: b) :
    ∃ a' b', l = a' ++ e :: b' ∧ a'.filter p = a ∧ b'.filter p = b ∧ p e = true := by
  obtain ⟨l1, l2, rfl, h1, h2⟩ := List.filter_eq_append_iff.1 h
  obtain ⟨l3, l4, rfl, h3, h4, h5⟩ := List.filter_eq_cons_iff.1 h2
  refine ⟨l1 ++ l3, l4, by simp, ?_, h5, h4⟩
  rw [List.filter_append, h1, List.filter_eq_nil_iff.2 h3, List.append_nil]

/-- The external data emitted for an object is what belongs to it. -/
theorem emitted_exts (fold : Bytes → Bytes) (ver : Int) (exts rest : List Ext) (r : Hist)
    (hr : rest.filter (fun e => e.obj = r.obj) = exts.filter (fun e => e.obj = r.obj)) (hs : ExtOrder rest) (e : Ext) :
    let t := takeExts fold ver r.ver r.obj rest [] []
    e ∈ t.2.1.filter (fun e => t.2.2.any (fun n => fold n = fold e.name)) ↔ Belongs fold ver exts r e := by
  intro t
  have ht : t = (rest.filter (fun e => e.obj > r.obj),
      collectExts fold ver r.ver (exts.filter (fun e => e.obj = r.obj)) [] []) := by
    show takeExts fold ver r.ver r.obj rest [] [] = _
    rw [takeExts_eq fold ver r.ver r.obj rest hs, hr]
  have h1 := (collect_reces fold ver r.ver (exts.filter (fun e => e.obj = r.obj)) [] [] [] List.Pairwise.nil
    (fun e => by constructor
                 · intro h; cases h
                 · rintro ⟨a, b, h, _⟩; cases a <;> cases h)).2
  have h2 := collect_names fold ver r.ver (exts.filter (fun e => e.obj = r.obj)) [] []
  rw [List.nil_append] at h1 h2
  rw [ht]
  simp only
  rw [List.mem_filter, h1, h2]
  unfold Belongs LastNamed
  constructor
  · rintro ⟨⟨a, b, h3, h4, h5, h6⟩, h7⟩
    obtain ⟨a', b', rfl, ha, hb, he⟩ := filter_split _ _ _ _ _ h3
    simp only [decide_eq_true_eq] at he
    refine ⟨⟨a', b', rfl, he, h4, h5, fun f hf hfo hfv hfp => h6 f ?_ hfv hfp⟩, ?_⟩
    · rw [← hb, List.mem_filter]; exact ⟨hf, by simpa using hfo⟩
    · simp only [List.any_map, List.any_filter, List.any_eq_true, Bool.and_eq_true, decide_eq_true_eq,
        Function.comp_apply] at h7
      obtain ⟨f, hf, hfo, hfv, hn⟩ := h7
      exact ⟨f, hf, hfo, hfv, hn⟩
  · rintro ⟨⟨a, b, h3, he, h4, h5, h6⟩, f, hf, hfo, hfv, hn⟩
    refine ⟨⟨a.filter (fun e => e.obj = r.obj), b.filter (fun e => e.obj = r.obj), ?_, h4, h5, fun g hg hgv hgp => ?_⟩, ?_⟩
    · rw [h3, List.filter_append, List.filter_cons_of_pos (by simpa using he)]
    · have hg := List.mem_filter.1 hg
      exact h6 g hg.1 (by simpa using hg.2) hgv hgp
    · simp only [List.any_map, List.any_filter, List.any_eq_true, Bool.and_eq_true, decide_eq_true_eq,
        Function.comp_apply]
      exact ⟨f, hf, hfo, hfv, hn⟩

/-! ## History -/

theorem newest_nil (n : Int) (r : Hist) : ¬ Newest n [] r := by
  rintro ⟨a, b, h, _⟩
  cases a <;> cases h

theorem newest_snoc (n : Int) (pre : List Hist) (h r : Hist) :
    Newest n (pre ++ [h]) r ↔
      (Newest n pre r ∧ (h.obj = r.obj → h.ver ≤ n → h.removed = false ∧ h.packed = false)) ∨
      (r = h ∧ h.ver ≤ n ∧ h.removed = false ∧ h.packed = true) := by
  constructor
  · rintro ⟨a, b, h1, h2, h3, h4, h5⟩
    rcases List.eq_nil_or_concat b with rfl | ⟨b', y, rfl⟩
    · obtain ⟨_, h6⟩ := List.append_inj' h1 rfl
      have h6 := (List.cons.inj h6).1
      subst h6
      exact Or.inr ⟨rfl, h2, h3, h4⟩
    · rw [List.concat_eq_append] at h1 h5
      have h1' : pre ++ [h] = (a ++ r :: b') ++ [y] := by rw [h1]; simp
      obtain ⟨hd, hy⟩ := List.append_inj' h1' rfl
      have hy := (List.cons.inj hy).1
      subst hy
      exact Or.inl ⟨⟨a, b', hd, h2, h3, h4, fun f hf => h5 f (List.mem_append_left _ hf)⟩, h5 h (by simp)⟩
  · rintro (⟨⟨a, b, h1, h2, h3, h4, h5⟩, h6⟩ | ⟨rfl, h2, h3, h4⟩)
    · refine ⟨a, b ++ [h], by rw [h1]; simp, h2, h3, h4, fun f hf => ?_⟩
      rcases List.mem_append.1 hf with hf | hf
      · exact h5 f hf
      · rw [List.mem_singleton.1 hf]; exact h6
    · exact ⟨pre, [], rfl, h2, h3, h4, fun f hf => by cases hf⟩

theorem newest_mem {n : Int} {l : List Hist} {r : Hist} (h : Newest n l r) : r ∈ l := by
  obtain ⟨a, b, rfl, _⟩ := h
  simp

/-- What the loop knows after the records `pre`. -/
structure Inv (fold : Bytes → Bytes) (ver : Int) (exts : List Ext) (pre : List Hist) (st : St) : Prop where
  bound : ∀ h ∈ pre, h.obj ≤ st.cur
  none_ : st.lastremoved = true → ∀ r, Newest ver pre r → r.obj ≠ st.cur
  some_ : st.lastremoved = false → ∃ r, st.rech1 = some r ∧ st.lastver = r.ver ∧ r.obj = st.cur ∧ Newest ver pre r ∧
    ∀ r', Newest ver pre r' → r'.obj = st.cur → r' = r
  out_ : ∀ r, r ∈ st.out.map (·.1) ↔ Newest ver pre r ∧ r.obj ≠ st.cur
  sorted : (st.out.map (·.1)).Pairwise (fun a b => a.obj < b.obj)
  belongs : ∀ x ∈ st.out, ∀ e, e ∈ x.2 ↔ Belongs fold ver exts x.1 e
  order : ExtOrder st.exts
  rest : ∀ o, st.cur ≤ o → st.exts.filter (fun e => e.obj = o) = exts.filter (fun e => e.obj = o)

/-- After writing the current object out. -/
structure Done (fold : Bytes → Bytes) (ver : Int) (exts : List Ext) (pre : List Hist) (st : St) : Prop where
  bound : ∀ h ∈ pre, h.obj ≤ st.cur
  out_ : ∀ r, r ∈ st.out.map (·.1) ↔ Newest ver pre r
  sorted : (st.out.map (·.1)).Pairwise (fun a b => a.obj < b.obj)
  belongs : ∀ x ∈ st.out, ∀ e, e ∈ x.2 ↔ Belongs fold ver exts x.1 e
  order : ExtOrder st.exts
  rest : ∀ o, st.cur < o → st.exts.filter (fun e => e.obj = o) = exts.filter (fun e => e.obj = o)

theorem emit_done (fold : Bytes → Bytes) (ver : Int) (exts : List Ext) (pre : List Hist) (st : St)
    (hi : Inv fold ver exts pre st) :
    ∃ st', emit fold ver st = .ok st' ∧ st'.cur = st.cur ∧ Done fold ver exts pre st' := by
  by_cases hl : st.lastremoved = true
  · refine ⟨st, by rw [emit, if_pos hl], rfl, hi.bound, fun r => ?_, hi.sorted, hi.belongs, hi.order,
      fun o ho => hi.rest o (Nat.le_of_lt ho)⟩
    rw [hi.out_]
    exact ⟨fun h => h.1, fun h => ⟨h, hi.none_ hl r h⟩⟩
  · have hl' : st.lastremoved = false := by simpa using hl
    obtain ⟨r, h1, h2, h3, h4, h5⟩ := hi.some_ hl'
    rw [emit, if_neg hl, h1]
    refine ⟨_, rfl, rfl, hi.bound, fun x => ?_, ?_, ?_, ?_, ?_⟩
    · simp only [List.map_append, List.map_cons, List.map_nil, List.mem_append, List.mem_singleton]
      rw [hi.out_]
      constructor
      · rintro (h | rfl)
        · exact h.1
        · exact h4
      · intro h
        by_cases hx : x.obj = st.cur
        · exact Or.inr (h5 x h hx)
        · exact Or.inl ⟨h, hx⟩
    · simp only [List.map_append, List.map_cons, List.map_nil]
      refine List.pairwise_append.2 ⟨hi.sorted, List.pairwise_singleton .., fun a ha b hb => ?_⟩
      rw [List.mem_singleton.1 hb, h3]
      have ha := (hi.out_ a).1 ha
      have := hi.bound a (newest_mem ha.1)
      have := ha.2
      omega
    · intro x hx e
      rcases List.mem_append.1 hx with hx | hx
      · exact hi.belongs x hx e
      · rw [List.mem_singleton.1 hx]
        have := emitted_exts fold ver exts st.exts r (hi.rest r.obj (by omega)) hi.order e
        rw [h2, ← h3]
        exact this
    · simp only
      rw [takeExts_eq fold ver _ _ st.exts hi.order]
      exact List.Pairwise.filter _ hi.order
    · intro o ho
      simp only
      rw [takeExts_eq fold ver _ _ st.exts hi.order, ← hi.rest o (Nat.le_of_lt ho)]
      simp only
      rw [List.filter_filter]
      refine List.filter_congr (fun e _ => ?_)
      by_cases h : e.obj = o
      · simp only [h]; simp; exact ho
      · simp [h]

theorem look_inv (fold : Bytes → Bytes) (ver : Int) (exts : List Ext) (pre : List Hist) (h : Hist) (st : St)
    (hi : Inv fold ver exts pre st) (hc : h.obj = st.cur) :
    Inv fold ver exts (pre ++ [h]) (look ver h st) := by
  have hb : ∀ x ∈ pre ++ [h], x.obj ≤ st.cur := by
    intro x hx
    rcases List.mem_append.1 hx with hx | hx
    · exact hi.bound x hx
    · rw [List.mem_singleton.1 hx, hc]; exact Nat.le_refl _
  have hout : ∀ r, r ∈ st.out.map (·.1) ↔ Newest ver (pre ++ [h]) r ∧ r.obj ≠ st.cur := by
    intro r
    rw [hi.out_, newest_snoc]
    constructor
    · rintro ⟨h1, h2⟩
      exact ⟨Or.inl ⟨h1, fun he => absurd (he.symm.trans hc) h2⟩, h2⟩
    · rintro ⟨h1 | h1, h2⟩
      · exact ⟨h1.1, h2⟩
      · exact absurd (by rw [h1.1, hc]) h2
  have key : ∀ (same : ¬ (h.ver ≤ ver ∧ (h.removed = true ∨ h.packed = true))), Inv fold ver exts (pre ++ [h]) st := by
    intro same
    have hn : ∀ r, Newest ver (pre ++ [h]) r ↔ Newest ver pre r := by
      intro r
      rw [newest_snoc]
      constructor
      · rintro (h1 | h1)
        · exact h1.1
        · exact absurd ⟨h1.2.1, Or.inr h1.2.2.2⟩ same
      · intro h1
        refine Or.inl ⟨h1, fun _ hv => ⟨?_, ?_⟩⟩
        · cases hr : h.removed
          · rfl
          · exact absurd ⟨hv, Or.inl hr⟩ same
        · cases hr : h.packed
          · rfl
          · exact absurd ⟨hv, Or.inr hr⟩ same
    exact ⟨hb, fun hl r hr => hi.none_ hl r ((hn r).1 hr), fun hl => by
      obtain ⟨r, h1, h2, h3, h4, h5⟩ := hi.some_ hl
      exact ⟨r, h1, h2, h3, (hn r).2 h4, fun r' hr => h5 r' ((hn r').1 hr)⟩, hout, hi.sorted, hi.belongs, hi.order, hi.rest⟩
  unfold look
  by_cases hv : h.ver ≤ ver
  · rw [if_pos hv]
    by_cases hr : h.removed = true
    · rw [if_pos hr]
      refine ⟨hb, fun _ r hn => ?_, fun hl => by simp at hl, hout, hi.sorted, hi.belongs, hi.order, hi.rest⟩
      intro hx
      rcases (newest_snoc ver pre h r).1 hn with h1 | h1
      · have := (h1.2 (by rw [hc]; exact hx.symm) hv).1
        rw [hr] at this; cases this
      · rw [hr] at h1; cases h1.2.2.1
    · rw [if_neg hr]
      have hr' : h.removed = false := by simpa using hr
      by_cases hp : h.packed = true
      · rw [if_pos hp]
        refine ⟨hb, fun hl => by simp at hl, fun _ => ⟨h, rfl, rfl, hc, (newest_snoc ver pre h h).2 (Or.inr ⟨rfl, hv, hr', hp⟩),
          fun r' hn hx => ?_⟩, hout, hi.sorted, hi.belongs, hi.order, hi.rest⟩
        rcases (newest_snoc ver pre h r').1 hn with h1 | h1
        · have := (h1.2 (by rw [hc]; exact hx.symm) hv).2
          rw [hp] at this; cases this
        · exact h1.1
      · rw [if_neg hp]
        exact key (fun hk => by rcases hk.2 with h' | h' <;> contradiction)
  · rw [if_neg hv]
    exact key (fun hk => hv hk.1)

theorem loop_done (fold : Bytes → Bytes) (ver : Int) (exts : List Ext) (l pre : List Hist) (st : St)
    (ho : HistOrder (pre ++ l)) (hcur : pre ≠ [] → ∃ h ∈ pre, h.obj = st.cur) (hz : pre = [] → st.cur = 0)
    (hi : Inv fold ver exts pre st) :
    ∃ st', loop fold ver l st = .ok st' ∧ Done fold ver exts (pre ++ l) st' := by
  induction l generalizing pre st with
  | nil =>
    obtain ⟨st', h1, _, h2⟩ := emit_done fold ver exts pre st hi
    exact ⟨st', h1, by simpa using h2⟩
  | cons h l ih =>
    have hle : st.cur ≤ h.obj := by
      by_cases hp : pre = []
      · rw [hz hp]; exact Nat.zero_le _
      · obtain ⟨x, hx, hxe⟩ := hcur hp
        rw [← hxe]
        exact (List.pairwise_append.1 ho).2.2 x hx h (by simp)
    rw [show pre ++ h :: l = (pre ++ [h]) ++ l by simp] at ho ⊢
    rw [loop, step]
    by_cases hc : h.obj ≠ st.cur
    · rw [if_pos hc]
      obtain ⟨st1, h1, h2, h3⟩ := emit_done fold ver exts pre st hi
      rw [h1]
      simp only [Outcome.ok_bind]
      have hlt : st1.cur < h.obj := by omega
      have hi' : Inv fold ver exts pre { st1 with cur := h.obj, lastremoved := true } := by
        refine ⟨fun x hx => Nat.le_of_lt (Nat.lt_of_le_of_lt (h3.bound x hx) hlt), fun _ r hn => ?_, fun hl => by simp at hl,
          fun r => ?_, h3.sorted, h3.belongs, h3.order, fun o ho' => h3.rest o (Nat.lt_of_lt_of_le hlt ho')⟩
        · exact Nat.ne_of_lt (Nat.lt_of_le_of_lt (h3.bound r (newest_mem hn)) hlt)
        · rw [h3.out_]
          exact ⟨fun hn => ⟨hn, Nat.ne_of_lt (Nat.lt_of_le_of_lt (h3.bound r (newest_mem hn)) hlt)⟩, fun hn => hn.1⟩
      refine ih (pre ++ [h]) _ ho (fun _ => ⟨h, by simp, ?_⟩) (fun e => by simp at e) (look_inv fold ver exts pre h _ hi' rfl)
      unfold look
      repeat' split
      all_goals rfl
    · rw [if_neg hc]
      have hc' : h.obj = st.cur := by omega
      simp only [Outcome.ok_bind]
      refine ih (pre ++ [h]) _ ho (fun _ => ⟨h, by simp, ?_⟩) (fun e => by simp at e) (look_inv fold ver exts pre h st hi hc')
      rw [hc']
      unfold look
      repeat' split
      all_goals rfl

theorem init_inv (fold : Bytes → Bytes) (ver : Int) (exts : List Ext) (he : ExtOrder exts) :
    Inv fold ver exts [] { exts := exts } :=
  ⟨fun _ h => (by cases h), fun _ r hn => absurd hn (newest_nil ver r), fun h => (by simp at h),
    fun r => ⟨fun h => (by simp at h), fun h => absurd h.1 (newest_nil ver r)⟩, List.Pairwise.nil, fun _ h => (by simp at h),
    he, fun _ _ => rfl⟩

end Verif.Depot
