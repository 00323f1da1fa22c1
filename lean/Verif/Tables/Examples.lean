import Verif.Tables.Theorems

/-! # A database with one table: the hypotheses of C88 are met, and what deleting and restoring do -/

namespace Verif.Tables
open Verif Object Spec

/-- A database whose only objects are two empty ones, the root object on page 2 and another one on page 3. -/
def twoFiles : St := { freshDb 2 with pages := ((freshDb 2).pages.set 2 freshHeader).set 3 freshHeader }

def emptyRoot : Obj := ⟨.data80, 2, 0, 1, 0, 0, [], none, 0, 0, 1, 0, false⟩
def emptyDescr : Obj := ⟨.data80, 3, 0, 1, 0, 0, [], none, 0, 0, 1, 0, false⟩

/-- `{"T"}` in UTF-16. -/
def descrText : Bytes := [0x7b, 0, 0x22, 0, 0x54, 0, 0x22, 0, 0x7d, 0]

def env (ora : Nat → Bool) : Env := ⟨4096, ora, 762⟩

theorem length_freshHeader : freshHeader.length = 4096 := by
  rw [freshHeader, length_splice _ _ _ (by rw [List.length_replicate]; decide)]; exact List.length_replicate

theorem twoFiles_rep (ora : Nat → Bool) : Rep (env ora) twoFiles (freshSpec 2) := by
  have h1 : Rep (env ora) { freshDb 2 with pages := (freshDb 2).pages.set 2 freshHeader } (freshSpec 2) :=
    rep_set (fresh_rep _ rfl 2 (by decide)) (q := 2) (p := freshHeader) (by decide) length_freshHeader rfl rfl
  exact rep_set h1 (q := 3) (p := freshHeader) (by decide) length_freshHeader rfl rfl

theorem twoFiles_page (q : Nat) (hq : q = 2 ∨ q = 3) : twoFiles.pages[q]? = some freshHeader := by
  rcases hq with rfl | rfl <;> rfl

theorem empty_opened (o : Obj) (hk : o.kind = .data80) (hb : o.blocks = []) (hn : o.numblocks = 0) (hl : o.len = 0)
    (hp : twoFiles.pages[o.block]? = some freshHeader) : Opened80 twoFiles o [] [] := by
  refine ⟨hk, hb, hn, by rw [hl]; rfl, rfl, ⟨freshHeader, hp, rfl, by rw [hl]; exact freshHeader_word 8 (by omega) (by omega)⟩, ?_⟩
  exact ⟨⟨freshHeader, hp, by simp⟩, by simp, by simp, by simp⟩

/-- The list `bs` is stored, and the description. -/
def built (ora : Nat → Bool) (bs : List Nat) : Outcome (Option (St × Obj × Obj)) := do
  match ← setWhole (env ora) false 9 twoFiles emptyRoot (rootData (List.replicate 32 0) bs) with
  | none => .ok none
  | some (s, root) =>
    match ← setWhole (env ora) false 9 s emptyDescr descrText with
    | none => .ok none
    | some (s, d) => .ok (some (s, root, d))

/-- Storing a list with at most one table and a description gives a database as `delete_table_partial` wants it. -/
theorem example_base (ora : Nat → Bool) (bs : List Nat) (hbs : bs = [] ∨ bs = [3]) : ∃ (b : Base) (sp : FreeSpec.State) (rp dp : List Nat) (d : Obj),
    Rep (env ora) b.st sp ∧ Spec.Holds .v8_2_14 b.st sp b.root rp (List.replicate 32 0) bs ∧ b.tables = [⟨none, none, none, some d⟩] ∧
    d.block = 3 ∧ d.len = 10 ∧ Transfer.Part b.st sp (some d) dp ∧ (rp ++ dp).Nodup ∧ rp.length = 3 ∧ dp.length = 3 ∧
    sp.total ≤ 9 ∧ Budget sp 100 ∧ built ora bs = .ok (some (b.st, b.root, d)) := by
  have hrl : (rootData (List.replicate 32 0) bs).length = 36 + 4 * bs.length := by rw [length_rootData]; rfl
  have hbl : bs.length ≤ 1 := by rcases hbs with rfl | rfl <;> decide
  have htwo : 2 * (((rootData (List.replicate 32 0) bs).length + 4095) / 4096) = 2 := by omega
  obtain ⟨s1, o1, sp1, t1, d1, a1, a2, a3, a4, a5, a6, a7, _, a8, a9, a10⟩ := set_whole_core (env ora) (Nat.le_refl _) 9 twoFiles (freshSpec 2)
    emptyRoot [] [] (rootData (List.replicate 32 0) bs) 150 (twoFiles_rep ora)
    (empty_opened emptyRoot rfl rfl rfl rfl (twoFiles_page 2 (.inl rfl)))
    (by intro q hq; simp at hq; subst hq; decide) (by intro h0; rw [h0] at hrl; simp at hrl; omega) (by omega) (by decide)
    (by rw [htwo]; decide) ⟨by decide, by decide⟩ (by decide)
  rw [good_stored _ (by left; omega)] at a7
  rw [htwo] at a10
  have hd := empty_opened emptyDescr rfl rfl rfl rfl (twoFiles_page 3 (.inr rfl))
  obtain ⟨b1, b2, b3⟩ := a8 3 (by decide) (by decide)
  have hd1 : Transfer.Owned s1 sp1 emptyDescr [3] :=
    Transfer.owned_frame (s := twoFiles) (sp := freshSpec 2) ⟨[], [], rfl, hd, by intro q hq; simp at hq; subst hq; decide⟩
      (by intro q hq; simp at hq; subst hq; exact ⟨b1, b3⟩)
  obtain ⟨tt, dd, e1, hd1o, hd1w⟩ := hd1
  have htt : tt = [] ∧ dd = [] := by
    have := congrArg List.length e1
    simp only [List.length_cons, List.length_append, List.length_nil] at this
    exact ⟨List.eq_nil_of_length_eq_zero (by omega), List.eq_nil_of_length_eq_zero (by omega)⟩
  obtain ⟨rfl, rfl⟩ := htt
  have htot : sp1.total ≤ 4 + 2 := a10
  obtain ⟨s2, o2, sp2, t2, d2, c1, c2, c3, c4, c5, c6, c7, _, c8, c9, c10⟩ := set_whole_core (env ora) (Nat.le_refl _) 9 s1 sp1
    emptyDescr [] [] descrText 100 a2 hd1o hd1w (by decide) (by decide) (by decide)
    (by have : 2 * ((descrText.length + 4095) / 4096) = 2 := by decide
        rw [this]; omega) (budget_mono a9 (by decide)) (by decide)
  have hl1 : o1.len = 36 + 4 * bs.length := by rw [a5, hrl]
  have hl2 : o2.len = 10 := c5
  have hn1 := a3.nDatas
  have hn2 := a3.nTabs
  have hm1 := c3.nDatas
  have hm2 := c3.nTabs
  have hb1 : o1.block = 2 := a6
  have hb2 : o2.block = 3 := c6
  have hfr : ∀ q ∈ o1.block :: (t1 ++ d1), q ∈ sp2.used ∧ q ∉ (3 :: (t2 ++ d2)) ∧ s2.pages[q]? = s1.pages[q]? := by
    intro q hq
    rw [hb1] at hq
    refine c8 q (a4 q hq) ?_
    show q ∉ [3]
    rw [List.mem_singleton]
    rintro rfl
    exact b2 hq
  have hh1 : Spec.Holds .v8_2_14 s1 sp1 o1 (o1.block :: (t1 ++ d1)) (List.replicate 32 0) bs := by
    refine ⟨⟨t1, d1, rfl, a3, by rw [hb1]; exact a4⟩, hb1, by decide, by omega, ?_, a5, ?_, .inl ?_⟩
    · intro b hb; rcases hbs with rfl | rfl
      · cases hb
      · rw [List.mem_singleton.1 hb]; decide
    · intro i hi
      exact a7 i hi
    · exact set_whole_data_none (env ora) 9 twoFiles emptyRoot _ s1 o1 rfl a1
  have hh2 := holds_frame hh1 (s' := s2) (sp' := sp2) (fun q hq => ⟨(hfr q hq).1, (hfr q hq).2.2⟩)
  refine ⟨⟨s2, o1, [⟨none, none, none, some o2⟩]⟩, sp2, o1.block :: (t1 ++ d1), o2.block :: (t2 ++ d2), o2, c2, hh2, rfl, hb2, hl2,
    ⟨t2, d2, rfl, c3, by rw [hb2]; exact c4⟩, ?_, ?_, ?_, ?_, c9, ?_⟩
  · rw [List.nodup_append]
    refine ⟨a3.file.distinct, c3.file.distinct, ?_⟩
    intro x hx y hy hxy
    subst hxy
    rw [hb2] at hy
    exact (hfr x hx).2.1 hy
  · simp only [List.length_cons, List.length_append]; omega
  · simp only [List.length_cons, List.length_append]; omega
  · exact Nat.le_trans (show sp2.total ≤ sp1.total + 2 from c10) (Nat.le_trans (Nat.add_le_add_right htot 2) (by decide))
  · unfold built
    rw [a1]
    simp only [Outcome.ok_bind]
    rw [c1]
    rfl

/-- The table is deleted: nothing is on the list any more. -/
example (ora : Nat → Bool) : ∃ b b' d, deleteTable (env ora) .v8_2_14 false 9 b ⟨none, none, none, some d⟩ = .ok (some (b', true)) ∧
    Names .v8_2_14 b.st.pages [3] ∧ Names .v8_2_14 b'.st.pages [] ∧ b'.tables = [] := by
  obtain ⟨b, sp, rp, dp, d, h1, h2, h3, h4, h5, h6, h7, h8, h9, h10, h11, _⟩ := example_base ora [3] (.inr rfl)
  have hnd : (rp ++ (dp ++ ([] ++ ([] ++ [])))).Nodup := by simpa using h7
  obtain ⟨b', sp', rp', s1, sp1, c1, c2, c3, c4, c5, _⟩ := delete_table_partial (env ora) (Nat.le_refl _) 9 .v8_2_14 b sp rp _ [3] h1 h2
    ⟨none, none, none, some d⟩ (by rw [h3]; simp) d rfl (by rw [h4]; simp) dp [] [] [] h6 rfl rfl rfl hnd
    (fun x hx => by cases hx; omega) (fun x hx => by cases hx) (fun x hx => by cases hx) (fun x hx => by cases hx) (by omega)
    (budget_mono h11 (by simp; omega)) (by omega)
  refine ⟨b, b', d, c1, holds_names h1 h2, ?_, ?_⟩
  · rw [h4] at c5; exact c5
  · rw [c3, h3]; simp

/-- Opened for reading only, the same call fails, with the pages of the table given back. -/
example (ora : Nat → Bool) : ∃ b d, deleteTable (env ora) .v8_2_14 true 9 b ⟨none, none, none, some d⟩ = .throw ∧
    ∃ s' sp', deleteFiles (env ora) ⟨none, none, none, some d⟩ b.st = .ok (3, s') ∧ Rep (env ora) s' sp' ∧ 3 ∉ sp'.used ∧ Names .v8_2_14 s'.pages [3] := by
  obtain ⟨b, sp, rp, dp, d, h1, h2, h3, h4, h5, h6, h7, h8, h9, h10, h11, _⟩ := example_base ora [3] (.inr rfl)
  have hnd : (rp ++ (dp ++ ([] ++ ([] ++ [])))).Nodup := by simpa using h7
  have h3p : 3 ∈ dp := by
    obtain ⟨t, x, rfl, _, _⟩ := h6
    rw [h4]; simp
  obtain ⟨c1, s', sp', c2, c3, c4, c5⟩ := delete_readonly (env ora) (Nat.le_refl _) 9 .v8_2_14 b sp rp _ [3] h1 h2
    ⟨none, none, none, some d⟩ (by rw [h3]; simp) d rfl (by rw [h4]; simp) (by omega) dp [] [] [] h6 rfl rfl rfl hnd
    (fun x hx => by cases hx; omega) (fun x hx => by cases hx) (fun x hx => by cases hx) (fun x hx => by cases hx)
    (budget_mono h11 (by simp; omega))
  rw [h4] at c2
  exact ⟨b, d, c1, s', sp', c2, c3, c4 3 h3p, c5⟩

/-- The objects of the database built with an empty list: those on pages 1 to 3, with the description on page 3. -/
def checked (s : St) : Bool :=
  decide (s.pages.length ≤ 9) && (((List.range 9).filter fun i => decide ((s.pages[i]?.getD []).take 8 = sigObj)) == [1, 2, 3]) &&
    decide ((s.pages[3]?.getD []).length = 4096) && (Object.Spec.word (s.pages[3]?.getD []) 8 == some 10) &&
    (List.range 10).all fun i => Object.Spec.byteAt s.pages 4096 Object.Spec.file80 3 i == descrText[i]?

theorem built_checked : (match built (fun _ => true) [] with | .ok (some (s, _, _)) => checked s | _ => false) = true := by
  decide +kernel

/-- With the list empty and nothing but the root object open, the description on page 3 is a lost table, and it is put on the list. -/
example : ∃ s root s' root', LostTable s.pages [⟨0, 1⟩, ⟨0, 2⟩] 3 ∧ Names .v8_2_14 s.pages [] ∧
    restore (env fun _ => true) .v8_2_14 false 9 (fun _ => 0) (some [⟨0, 1⟩, ⟨0, 2⟩]) s root = .ok (some (s', root', 1)) ∧
    Names .v8_2_14 s'.pages [3] := by
  obtain ⟨b, sp, rp, dp, d, h1, h2, h3, h4, h5, h6, h7, h8, h9, h10, h11, h12⟩ := example_base (fun _ => true) [] (.inl rfl)
  have hc := built_checked
  rw [h12] at hc
  simp only [checked, Bool.and_eq_true, decide_eq_true_eq, beq_iff_eq, List.all_eq_true] at hc
  obtain ⟨⟨⟨⟨c1, c2⟩, c3⟩, c4⟩, c5⟩ := hc
  have hmk : ∀ i, Lost.Spec.Marked b.st.pages i → i ∈ [1, 2, 3] := by
    rintro i ⟨rest, hi⟩
    have hlt : i < b.st.pages.length := by
      rcases Nat.lt_or_ge i b.st.pages.length with h | h
      · exact h
      · rw [List.getElem?_eq_none h] at hi; cases hi
    rw [← c2, List.mem_filter, List.mem_range]
    refine ⟨by omega, ?_⟩
    rw [decide_eq_true_iff, hi]
    show (App.Spec.word "1CDBOBV8" ++ rest).take 8 = sigObj
    rw [Lost.word_sig]
    rfl
  have h3p : ∃ p, b.st.pages[3]? = some p ∧ p.take 8 = sigObj := by
    have : 3 ∈ (List.range 9).filter fun i => decide ((b.st.pages[i]?.getD []).take 8 = sigObj) := by rw [c2]; decide
    rw [List.mem_filter, decide_eq_true_iff] at this
    cases hp : b.st.pages[3]? with
    | none => rw [hp] at c3; cases c3
    | some p => rw [hp] at this; exact ⟨p, rfl, this.2⟩
  obtain ⟨p, hp, hps⟩ := h3p
  rw [hp] at c3 c4
  have hm3 : Lost.Spec.Marked b.st.pages 3 := by
    refine ⟨p.drop 8, ?_⟩
    rw [hp, Lost.word_sig, ← hps, List.take_append_drop]
  have hc3 : Lost.Spec.Contents80 b.st.pages 3 descrText := by
    refine ⟨⟨p, hp, c3, c4⟩, by decide, ?_⟩
    intro i hi
    have := c5 i (by rw [List.mem_range]; exact hi)
    rw [Nat.zero_add, this, List.getElem?_eq_getElem hi]
  obtain ⟨ls, s', root', sp', ps', r1, r2, r3, r4, r5, r6, _⟩ := restore_partial (env fun _ => true) (Nat.le_refl _) 9 .v8_2_14 (by decide)
    (fun _ => 0) b.st sp b.root rp _ [] h1 h2 [⟨0, 1⟩, ⟨0, 2⟩] (by
      intro i hm hl
      have := hmk i hm
      simp only [List.mem_cons, List.not_mem_nil, or_false] at this
      rcases this with rfl | rfl | rfl
      · exact absurd rfl (hl ⟨0, 1⟩ (by simp))
      · exact absurd rfl (hl ⟨0, 2⟩ (by simp))
      · exact ⟨by decide, _, hc3⟩)
    (by have : b.st.pages.length ≤ 9 := c1
        show 32 + 4 + 4 * (0 + b.st.pages.length) ≤ _
        omega) (budget_mono h11 (by omega)) (by omega)
  have hlt : LostTable b.st.pages [⟨0, 1⟩, ⟨0, 2⟩] 3 := ⟨by decide, hm3, by decide, _, hc3⟩
  have hls : ls = [3] := by
    have hmem : ∀ i, i ∈ ls ↔ i = 3 := by
      intro i
      rw [r3]
      constructor
      · rintro ⟨_, hm, hl, _⟩
        have := hmk i hm
        simp only [List.mem_cons, List.not_mem_nil, or_false] at this
        rcases this with rfl | rfl | rfl
        · exact absurd rfl (hl ⟨0, 1⟩ (by simp))
        · exact absurd rfl (hl ⟨0, 2⟩ (by simp))
        · rfl
      · rintro rfl; exact hlt
    cases ls with
    | nil => exact absurd ((hmem 3).2 rfl) (by simp)
    | cons a l =>
      have ha := (hmem a).1 (by simp)
      cases l with
      | nil => rw [ha]
      | cons c l =>
        have hc' := (hmem c).1 (by simp)
        rw [List.pairwise_cons] at r2
        exact absurd (r2.1 c (by simp)) (by omega)
  subst hls
  exact ⟨b.st, b.root, s', root', hlt, holds_names h1 h2, r1, r6⟩

/-- A database in which a page was given back before; a list with one table and its description are stored; then the table is deleted, and lost tables are looked for. -/
def deleteAndRestore (live : List Lost.Live) : Outcome (List Nat × List Nat) := do
  let e := env fun _ => true
  let s ← setFree e { freshDb 3 with pages := ((freshDb 3).pages.set 2 freshHeader).set 3 freshHeader } 4
  match ← setWhole e false 9 s emptyRoot (rootData (List.replicate 32 0) [3]) with
  | none => .throw
  | some (s, root) =>
    match ← setWhole e false 9 s emptyDescr descrText with
    | none => .throw
    | some (s, d) =>
      match ← deleteTable e .v8_2_14 false 9 ⟨s, root, [⟨none, none, none, some d⟩]⟩ ⟨none, none, none, some d⟩ with
      | none => .throw
      | some (b, _) =>
        match ← restore e .v8_2_14 false 9 (fun _ => 0) (some live) b.st b.root with
        | none => .throw
        | some (s, root, _) => do
          let data ← saveToFile s.pages 4096 root
          let bs ← Db.tableBlocks .v8_2_14 data
          let (next, _) ← getFree e s
          .ok (bs, [next])

/-- **Finding (C88).** A table that was deleted comes back: its description is no longer covered by an open object, its pages still hold
what they held, so the search puts it onto the list again — but its pages are free: the very next object gets its header page. -/
theorem deleted_returns : deleteAndRestore [⟨0, 1⟩, ⟨0, 2⟩] = .ok ([3], [3]) := by
  decide +kernel

/-- **C88, broken objects.** A lost object whose first bytes cannot be read is passed over, and the search goes on. -/
theorem unreadable_skipped (pages : List Bytes) (P : Nat) (is838 : Bool) (r : Lost.Registry) (i : Nat) (is : List Nat) (o : Obj)
    (hl : Lost.isLost pages r i = .ok true) (ho : init pages P is838 i = .ok o) (hn : getPart pages P o 0 4 = .throw) :
    lostTables pages P is838 r (i :: is) = lostTables pages P is838 r is := by
  rw [lostTables, hl]
  simp only [Outcome.ok_bind, if_true]
  rw [ho]
  simp only [Outcome.ok_bind]
  have : isDescr pages P o = .ok false := by
    unfold isDescr
    rw [hn]
    split <;> rfl
  rw [this]
  simp only [Outcome.ok_bind]
  cases lostTables pages P is838 r is <;> rfl

/-- An object of eight bytes whose table is on page 99, which the file does not have. -/
def brokenPages : List Bytes := [[], splice (splice freshHeader 8 (le32 8)) 24 (le32 99)]

example : Lost.isLost brokenPages (some [⟨0, 7⟩]) 1 = .ok true ∧ (match init brokenPages 4096 false 1 with
    | .ok o => decide (getPart brokenPages 4096 o 0 4 = .throw)
    | _ => false) = true := by decide +kernel

example : lostTables brokenPages 4096 false (some [⟨0, 7⟩]) [1] = .ok [] := by decide +kernel

end Verif.Tables
