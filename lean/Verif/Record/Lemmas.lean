import Verif.Record.Spec

/-! # Helper lemmas: layout of records -/

namespace Verif.Record
open Verif

theorem i32_ok {z : Int} (h1 : 0 ≤ z) (h2 : z < 2147483648) : i32 z = .ok z := by
  unfold i32; rw [if_pos ⟨by omega, h2⟩]

theorem i32_nat (n : Nat) (h : n < 2147483648) : i32 (n : Int) = .ok (n : Int) := i32_ok (by omega) (by omega)

theorem fieldSize_ok (d : Decl) (h : Spec.Sane d) (hb : Spec.fieldBytes d < 2147483648) :
    fieldSize d = .ok (Spec.fieldBytes d) := by
  have h0 : 0 ≤ d.length := h.1
  have h1 : d.length + 2 < 2147483648 := h.2
  have hn : (d.length.toNat : Int) = d.length := Int.toNat_of_nonneg h0
  have hv : Spec.valueBytes d ≤ Spec.fieldBytes d := by unfold Spec.fieldBytes; omega
  have hs : typeSize d = .ok (Spec.valueBytes d) := by
    cases ht : d.type <;> simp only [typeSize, Spec.valueBytes, ht] at hv ⊢ <;> try rfl
    · rw [i32_ok (by omega) (by omega), hn]
    · rw [i32_ok (by omega) (by omega)]
      simp only [Outcome.ok_bind]
      congr 1; omega
    · rw [i32_ok (by omega) (by omega)]
      congr 1; omega
    · rw [i32_ok (by omega) (by omega)]
      simp only [Outcome.ok_bind]
      rw [i32_ok (by omega) (by omega)]
      congr 1; omega
    · rw [i32_ok (by omega) (by omega)]
      congr 1; omega
  unfold fieldSize
  rw [hs]
  simp only [Outcome.ok_bind]
  have : ((if d.nullExists = true then 1 else 0) + (Spec.valueBytes d : Int)) = (Spec.fieldBytes d : Int) := by
    unfold Spec.fieldBytes; split <;> simp
  rw [this, i32_ok (by omega) (by omega)]

/-- What one loop does, without the fields it does not look at. -/
def assign' (sel : Field → Bool) : List Field → Nat → List Field
  | [], _ => []
  | f :: fs, a =>
    if sel f then { f with offset := a } :: assign' sel fs (a + Spec.fieldBytes f.decl)
    else f :: assign' sel fs a

theorem place_pos {sel : Field → Bool} {f : Field} {fs gs : List Field} {num : Nat} {len sz len' n : Int} (hf : sel f = true)
    (h1 : fieldSize f.decl = .ok sz) (h2 : i32 (len + sz) = .ok len') (h3 : place sel num fs len' = .ok (gs, n)) :
    place sel (num + 1) (f :: fs) len = .ok ({ f with offset := len } :: gs, n) := by
  simp only [place, if_pos hf, h1, Outcome.ok_bind, h2, h3]

theorem place_neg {sel : Field → Bool} {f : Field} {fs gs : List Field} {num : Nat} {len n : Int} (hf : ¬ sel f = true)
    (h3 : place sel num fs len = .ok (gs, n)) :
    place sel (num + 1) (f :: fs) len = .ok (f :: gs, n) := by
  simp only [place, if_neg hf, Outcome.ok_bind, h3]

theorem place_ok (B : Nat) (hB : B ≤ 2147483648) (sel : Field → Bool) (rest : List Field) (fs : List Field) : ∀ (a : Nat), (∀ f ∈ fs, Spec.Sane f.decl) →
    a + Spec.total (fs.filter sel) < B →
    place sel fs.length (fs ++ rest) a = .ok (assign' sel fs a ++ rest, ((a + Spec.total (fs.filter sel) : Nat) : Int)) := by
  induction fs with
  | nil => intro a _ _; simp [place, assign', Spec.total]
  | cons f fs ih =>
    intro a hs hb
    have hs' : ∀ f ∈ fs, Spec.Sane f.decl := fun g hg => hs g (List.mem_cons_of_mem _ hg)
    by_cases hf : sel f = true
    · have ht : Spec.total ((f :: fs).filter sel) = Spec.fieldBytes f.decl + Spec.total (fs.filter sel) := by
        rw [List.filter_cons_of_pos hf]; simp [Spec.total]
      rw [ht] at hb ⊢
      have hle : a + Spec.fieldBytes f.decl ≤ a + (Spec.fieldBytes f.decl + Spec.total (fs.filter sel)) := by omega
      have hlt := Nat.lt_of_lt_of_le (Nat.lt_of_le_of_lt hle hb) hB
      have e1 := fieldSize_ok _ (hs f (List.mem_cons_self ..)) (Nat.lt_of_le_of_lt (Nat.le_add_left _ _) hlt)
      have e2 := i32_nat _ hlt
      have e3 := ih (a + Spec.fieldBytes f.decl) hs' (by rw [Nat.add_assoc]; exact hb)
      rw [Nat.add_assoc] at e3
      have e4 := place_pos (len := (a : Int)) hf e1 (by rw [← Int.natCast_add]; exact e2) e3
      rw [List.length_cons, List.cons_append, e4, assign', if_pos hf, List.cons_append]
    · have ht : (f :: fs).filter sel = fs.filter sel := List.filter_cons_of_neg hf
      rw [ht] at hb ⊢
      rw [List.length_cons, List.cons_append, place_neg hf (ih a hs' hb), assign', if_neg hf, List.cons_append]

/-- Only the place of a field is changed. -/
theorem assign_keeps (sel : Field → Bool) (fs : List Field) : ∀ a, (assign' sel fs a).map (fun f => (f.name, f.decl)) =
    fs.map (fun f => (f.name, f.decl)) := by
  induction fs with
  | nil => intro a; rfl
  | cons f fs ih =>
    intro a
    unfold assign'
    split <;> simp [ih]

theorem assign_length (sel : Field → Bool) (fs : List Field) (a : Nat) : (assign' sel fs a).length = fs.length := by
  have := congrArg List.length (assign_keeps sel fs a)
  simpa using this

theorem map_decl_of {fs gs : List Field} (h : fs.map (fun f => (f.name, f.decl)) = gs.map (fun f => (f.name, f.decl))) :
    fs.map Field.decl = gs.map Field.decl := by
  have := congrArg (List.map Prod.snd) h
  rw [List.map_map, List.map_map] at this
  exact this

/-- A choice that looks at the declaration only. -/
def ByDecl (sel : Field → Bool) : Prop := ∀ f g : Field, f.decl = g.decl → sel f = sel g

theorem total_filter_of (sel : Field → Bool) (hd : ByDecl sel) (fs : List Field) : ∀ gs : List Field,
    fs.map Field.decl = gs.map Field.decl → Spec.total (fs.filter sel) = Spec.total (gs.filter sel) := by
  induction fs with
  | nil => intro gs h; cases gs with
    | nil => rfl
    | cons g gs => simp at h
  | cons f fs ih =>
    intro gs h
    cases gs with
    | nil => simp at h
    | cons g gs =>
      simp only [List.map_cons, List.cons.injEq] at h
      have := ih gs h.2
      have hs := hd f g h.1
      rw [List.filter_cons, List.filter_cons, hs]
      split
      · simp only [Spec.total, List.map_cons, List.sum_cons, h.1] at this ⊢
        omega
      · exact this

/-- The fields given a place tile what they were given. -/
theorem assign_tiles (sel : Field → Bool) (hd : ByDecl sel) (fs : List Field) : ∀ a,
    Spec.Tiles a ((assign' sel fs a).filter sel) (a + Spec.total (fs.filter sel)) := by
  induction fs with
  | nil => intro a; simp [assign', Spec.Tiles, Spec.total]
  | cons f fs ih =>
    intro a
    unfold assign'
    by_cases hf : sel f = true
    · rw [if_pos hf, List.filter_cons_of_pos (by rw [← hf]; exact hd _ _ rfl), List.filter_cons_of_pos hf]
      have := ih (a + Spec.fieldBytes f.decl)
      refine ⟨rfl, ?_⟩
      simp only [Spec.total, List.map_cons, List.sum_cons] at this ⊢
      rw [Nat.add_assoc] at this
      exact this
    · rw [if_neg hf, List.filter_cons_of_neg hf, List.filter_cons_of_neg hf]
      exact ih a

/-- The other fields stay where they were. -/
theorem assign_others (sel : Field → Bool) (hd : ByDecl sel) (fs : List Field) : ∀ a,
    (assign' sel fs a).filter (fun f => !sel f) = fs.filter (fun f => !sel f) := by
  induction fs with
  | nil => intro a; rfl
  | cons f fs ih =>
    intro a
    unfold assign'
    by_cases hf : sel f = true
    · rw [if_pos hf, List.filter_cons_of_neg (by rw [hd { f with offset := (a : Int) } f rfl]; simp [hf]), List.filter_cons_of_neg (by simp [hf])]
      exact ih _
    · rw [if_neg hf, List.filter_cons_of_pos (by simp [hf]), List.filter_cons_of_pos (by simp [hf]), ih]

theorem tiles_append {a b c : Nat} {fs gs : List Field} (h1 : Spec.Tiles a fs b) (h2 : Spec.Tiles b gs c) :
    Spec.Tiles a (fs ++ gs) c := by
  induction fs generalizing a with
  | nil => cases h1; exact h2
  | cons f fs ih => exact ⟨h1.1, ih h1.2⟩

theorem tiles_bounds {a b : Nat} {fs : List Field} (h : Spec.Tiles a fs b) :
    a ≤ b ∧ ∀ f ∈ fs, (a : Int) ≤ f.offset ∧ f.offset + Spec.fieldBytes f.decl ≤ b := by
  induction fs generalizing a with
  | nil => cases h; simp
  | cons f fs ih =>
    obtain ⟨h1, h2⟩ := h
    obtain ⟨i1, i2⟩ := ih h2
    refine ⟨by omega, ?_⟩
    intro g hg
    rcases List.mem_cons.mp hg with rfl | hg
    · omega
    · have := i2 g hg; omega

theorem tiles_apart {a b : Nat} {fs : List Field} (h : Spec.Tiles a fs b) : fs.Pairwise Spec.Apart := by
  induction fs generalizing a with
  | nil => exact List.Pairwise.nil
  | cons f fs ih =>
    obtain ⟨h1, h2⟩ := h
    refine List.Pairwise.cons ?_ (ih h2)
    intro g hg
    have := (tiles_bounds h2).2 g hg
    left; omega

theorem apart_symm {f g : Field} (h : Spec.Apart f g) : Spec.Apart g f := h.symm

/-- Every byte between the ends belongs to a field. -/
theorem tiles_cover {a b : Nat} {fs : List Field} (h : Spec.Tiles a fs b) (k : Nat) (h1 : a ≤ k) (h2 : k < b) :
    ∃ f ∈ fs, f.offset ≤ k ∧ (k : Int) < f.offset + Spec.fieldBytes f.decl := by
  induction fs generalizing a with
  | nil => cases h; omega
  | cons f fs ih =>
    obtain ⟨e1, e2⟩ := h
    by_cases hk : k < a + Spec.fieldBytes f.decl
    · exact ⟨f, List.mem_cons_self .., by omega, by omega⟩
    · obtain ⟨g, hg, hh⟩ := ih e2 (by omega)
      exact ⟨g, List.mem_cons_of_mem _ hg, hh⟩

theorem isVersion_byDecl : ByDecl isVersion := by
  intro f g h; unfold isVersion; rw [h]

theorem notVersion_byDecl : ByDecl (fun f => !isVersion f) := by
  intro f g h; dsimp only; unfold isVersion; rw [h]

theorem inOrder_eq (fs : List Field) :
    Spec.inOrder fs = fs.filter isVersion ++ fs.filter (fun f => !isVersion f) := by
  unfold Spec.inOrder
  congr 1
  · apply List.filter_congr; intro f _; simp [isVersion]
  · apply List.filter_congr; intro f _
    by_cases h1 : f.decl.type = .version <;> by_cases h2 : f.decl.type = .version8 <;> simp [isVersion, h1, h2]

theorem total_split (sel : Field → Bool) (fs : List Field) :
    Spec.total (fs.filter sel) + Spec.total (fs.filter (fun f => !sel f)) = Spec.total fs := by
  induction fs with
  | nil => rfl
  | cons f fs ih =>
    by_cases h : sel f = true
    · rw [List.filter_cons_of_pos h, List.filter_cons_of_neg (by simp [h])]
      simp only [Spec.total, List.map_cons, List.sum_cons] at ih ⊢
      omega
    · rw [List.filter_cons_of_neg h, List.filter_cons_of_pos (by simp [h])]
      simp only [Spec.total, List.map_cons, List.sum_cons] at ih ⊢
      omega

/-- The whole computation, with fields behind the counted ones left alone. -/
theorem layout_ok (fs rest : List Field) (hs : ∀ f ∈ fs, Spec.Sane f.decl) (hb : 1 + Spec.total fs < 2147483648) :
    ∃ gs : List Field, layout fs.length (fs ++ rest) = .ok (gs ++ rest, ((max 5 (1 + Spec.total fs) : Nat) : Int)) ∧
      gs.map (fun f => (f.name, f.decl)) = fs.map (fun f => (f.name, f.decl)) ∧
      Spec.Tiles 1 (Spec.inOrder gs) (1 + Spec.total fs) := by
  have hsp := total_split isVersion fs
  unfold layout
  have p1 := place_ok _ (Nat.le_refl _) isVersion rest fs 1 hs (by omega)
  rw [show ((1 : Nat) : Int) = 1 by rfl] at p1
  rw [p1]
  simp only [Outcome.ok_bind]
  have hk := assign_keeps isVersion fs 1
  have hl := assign_length isVersion fs 1
  have hs2 : ∀ f ∈ assign' isVersion fs 1, Spec.Sane f.decl := by
    intro f hf
    have : f.decl ∈ fs.map Field.decl := by rw [← map_decl_of hk]; exact List.mem_map_of_mem hf
    obtain ⟨g, hg, e⟩ := List.mem_map.mp this
    rw [← e]; exact hs g hg
  have ht : Spec.total ((assign' isVersion fs 1).filter (fun f => !isVersion f)) = Spec.total (fs.filter (fun f => !isVersion f)) :=
    total_filter_of _ notVersion_byDecl _ _ (map_decl_of hk)
  have p2 := place_ok _ (Nat.le_refl _) (fun f => !isVersion f) rest (assign' isVersion fs 1) (1 + Spec.total (fs.filter isVersion)) hs2
    (by rw [ht]; omega)
  rw [hl] at p2
  rw [p2]
  simp only [Outcome.ok_bind]
  rw [ht, show 1 + Spec.total (fs.filter isVersion) + Spec.total (fs.filter (fun f => !isVersion f)) = 1 + Spec.total fs by omega]
  refine ⟨assign' (fun f => !isVersion f) (assign' isVersion fs 1) (1 + Spec.total (fs.filter isVersion)), ?_, ?_, ?_⟩
  · congr 2
    split <;> omega
  · rw [assign_keeps, hk]
  · rw [inOrder_eq]
    have t1 := assign_tiles isVersion isVersion_byDecl fs 1
    have t2 := assign_tiles (fun f => !isVersion f) notVersion_byDecl (assign' isVersion fs 1) (1 + Spec.total (fs.filter isVersion))
    rw [ht, show 1 + Spec.total (fs.filter isVersion) + Spec.total (fs.filter (fun f => !isVersion f)) = 1 + Spec.total fs by omega] at t2
    refine tiles_append ?_ t2
    have := assign_others (fun f => !isVersion f) notVersion_byDecl (assign' isVersion fs 1) (1 + Spec.total (fs.filter isVersion))
    simp only [Bool.not_not] at this
    rw [this]
    exact t1

end Verif.Record
