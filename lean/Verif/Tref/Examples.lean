import Verif.Tref.Theorems

/-!
# Replacing type numbers: the theorems meet concrete cases
-/

namespace Verif.Tref.Example
open Verif Verif.Record

/-- `12 \t 7`, `3 \t 2`, `5 \t 7`. -/
def lines : List Bytes := [[49, 50, 9, 55], [51, 9, 50], [53, 9, 55]]
def entries : List Spec.Entry := [⟨12, 7⟩, ⟨3, 2⟩, ⟨5, 7⟩]

theorem said : List.Forall₂ Spec.Line lines entries :=
  .cons ⟨[49, 50], [55], ⟨[1, 2], by decide, by decide, by decide, by decide⟩, ⟨[7], by decide, by decide, by decide, by decide⟩, rfl⟩
    (.cons ⟨[51], [50], ⟨[3], by decide, by decide, by decide, by decide⟩, ⟨[2], by decide, by decide, by decide, by decide⟩, rfl⟩
      (.cons ⟨[53], [55], ⟨[5], by decide, by decide, by decide, by decide⟩, ⟨[7], by decide, by decide, by decide, by decide⟩, rfl⟩ .nil))

example : ∃ m, readMap (Spec.file lines) = .ok m ∧ m.length = 8 ∧ ∀ n, n ≤ 7 → m[n]? = some (Spec.newOf entries n : Int) :=
  map_read said (by decide)
example : Spec.newOf entries 7 = 5 ∧ Spec.newOf entries 2 = 3 ∧ Spec.newOf entries 6 = 0 := by decide

theorem theMap : readMap (Spec.file lines) = .ok [0, 0, 3, 0, 0, 0, 0, 5] := by decide

/-- `1 \t -1`. -/
example : readMap [49, 9, 45, 49] = .ub := negative_undefined [49] [45, 49] (by decide) (by decide) 1 (-1) (by decide) (by decide) (by decide)

/-- `_fld1TRef`, four bytes behind the flag of removal. -/
def col : Spec.Column := ⟨[95, 102, 108, 100, 49, 84, 82, 101, 102], .binary, 4, ⟨1, false, 4⟩⟩
def other : Spec.Column := ⟨[95, 102, 108, 100, 50], .binary, 4, ⟨1, false, 4⟩⟩

theorem ref : Spec.IsRef col := by
  refine ⟨⟨[95, 102, 108, 100, 49], [84, 82, 101, 102], rfl, ?_⟩, rfl, rfl⟩
  refine (Unicode.equalIC_iff _ _ ?_ ?_).1.1 (by decide) <;>
  · intro c hc
    simp only [List.mem_cons, List.not_mem_nil, or_false] at hc
    rcases hc with rfl | rfl | rfl | rfl <;> decide

/-- A removed record and one with the number `n`. -/
def tab (n : UInt8) : Spec.Table := ⟨⟨[1, 0, 0, 0, 0, 0, 0, 0, 0, n], 5⟩, 2, [other, col]⟩
/-- The same without a column to replace. -/
def tabIdle : Spec.Table := ⟨⟨[1, 0, 0, 0, 0, 0, 0, 0, 0, 7], 5⟩, 2, [other]⟩

theorem other_idle (t : Spec.Table) : Spec.Idle t other := by
  rintro ⟨⟨p, q, h1, h2⟩, _⟩
  exfalso
  have hq : q.length = 4 := by
    have : ∀ (a b : List Nat), Unicode.Spec.SameText a b → a.length = b.length := by
      intro a
      induction a with
      | nil => intro b; cases b <;> simp [Unicode.Spec.SameText]
      | cons x a ih => intro b; cases b with
        | nil => simp [Unicode.Spec.SameText]
        | cons y b => intro h; simp only [List.length_cons]; rw [ih b h.2]
    exact this _ _ h2
  have hl : p.length = 1 := by
    have := congrArg List.length h1
    simp [other] at this
    omega
  obtain ⟨x, rfl⟩ := List.length_eq_one_iff.1 hl
  have : q = [102, 108, 100, 50] := by
    simp only [other, List.cons_append, List.nil_append, List.cons.injEq] at h1
    exact h1.2.symm
  subst this
  have := (Unicode.equalIC_iff [102, 108, 100, 50] [84, 82, 69, 70] ?_ ?_).1.2 h2
  · revert this; decide
  all_goals
    intro c hc
    simp only [List.mem_cons, List.not_mem_nil, or_false] at hc
    rcases hc with rfl | rfl | rfl | rfl <;> decide

theorem good (n : UInt8) : (tab n).Good := by
  refine ⟨⟨by show 0 < 5; decide, by show 10 = 2 * 5; decide, by show (10 : Nat) < _; decide⟩, ?_⟩
  intro c hc
  simp only [tab, List.mem_cons, List.not_mem_nil, or_false] at hc
  rcases hc with rfl | rfl
  · exact ⟨by unfold Spec.Plain; decide, by show 5 ≤ 5; decide, by decide⟩
  · exact ⟨by unfold Spec.Plain; decide, by show 5 ≤ 5; decide, by decide⟩

theorem goodIdle : tabIdle.Good := by
  refine ⟨⟨by decide, by decide, by decide⟩, ?_⟩
  intro c hc
  simp only [tabIdle, List.mem_cons, List.not_mem_nil, or_false] at hc
  rcases hc with rfl
  exact ⟨by unfold Spec.Plain; decide, by decide, by decide⟩

theorem first (n : UInt8) : Spec.First [tabIdle, tab n] (tab n) col 1 where
  place := ⟨[tabIdle], [], [other], [], rfl, rfl, by
    intro t ht c hc
    simp only [List.mem_cons, List.not_mem_nil, or_false] at ht
    subst ht
    simp only [tabIdle, List.mem_cons, List.not_mem_nil, or_false] at hc
    subst hc
    exact other_idle _, by
    intro c hc
    simp only [List.mem_cons, List.not_mem_nil, or_false] at hc
    subst hc
    exact other_idle _⟩
  ref := ref
  lt := by show 1 < 2; decide
  live := by show ([0, 0, 0, 0, n] : Bytes).head? = some 0; rfl
  first := by
    intro j hj
    have : j = 0 := by omega
    subst this
    show ¬ ([1, 0, 0, 0, 0] : Bytes).head? = some 0
    decide

theorem allGood (n : UInt8) : ∀ t ∈ [tabIdle, tab n], t.Good := by
  intro t ht
  simp only [List.mem_cons, List.not_mem_nil, or_false] at ht
  rcases ht with rfl | rfl
  · exact goodIdle
  · exact good n

/-- Number 7 is in the map: the call never ends. -/
example (fuel : Nat) (hf : 2 < fuel) : replace fuel (Spec.file lines) ([tabIdle, tab 7].map ofTable) = .ok none :=
  never_ends (first 7) (allGood 7) _ _ theMap (by decide) fuel (by
    intro t ht
    simp only [List.mem_cons, List.not_mem_nil, or_false] at ht
    rcases ht with rfl | rfl <;> exact hf)

/-- Number 8 is not: undefined. -/
example (fuel : Nat) (hf : 2 < fuel) : replace fuel (Spec.file lines) ([tabIdle, tab 8].map ofTable) = .ub :=
  unknown_number_undefined (first 8) (allGood 8) _ _ theMap (by decide) (by decide) fuel (by
    intro t ht
    simp only [List.mem_cons, List.not_mem_nil, or_false] at ht
    rcases ht with rfl | rfl <;> exact hf)

/-- The call returns for the base without such a column, and does not for the other one. -/
example : (∃ fuel r, replace fuel (Spec.file lines) ([tabIdle].map ofTable) = .ok (some r)) ∧
    ¬ ∃ fuel r, replace fuel (Spec.file lines) ([tabIdle, tab 7].map ofTable) = .ok (some r) := by
  refine ⟨(returns_iff _ _ theMap [tabIdle] ?_).1.2 ?_, fun h => ?_⟩
  · intro t ht
    simp only [List.mem_cons, List.not_mem_nil, or_false] at ht
    subst ht
    exact goodIdle
  · intro t ht c hc
    simp only [List.mem_cons, List.not_mem_nil, or_false] at ht
    subst ht
    simp only [tabIdle, List.mem_cons, List.not_mem_nil, or_false] at hc
    subst hc
    exact other_idle _
  · exact (returns_iff _ _ theMap [tabIdle, tab 7] (allGood 7)).1.1 h (tab 7) (by simp) col (by simp [tab]) ref 1 (by decide) (first 7).live

end Verif.Tref.Example
