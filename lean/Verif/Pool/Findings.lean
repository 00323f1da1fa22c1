import Verif.Pool.Theorems

/-! # C108: examples, and what goes wrong -/

namespace Verif.Pool
open Verif

/-- Three objects of two databases; the second is destroyed; the first is read, written and read again. -/
def exOps : List Op := [.create 1 2 [1, 2], .create 1 7 [3], .create 2 7 [], .get 0 10, .lock 2 11 true, .destroy 1, .write 0 12 [4, 5, 6],
  .garbage 400000, .create 1 9 [8]]

theorem ex_legal : Spec.Legal .init exOps := by
  simp [exOps, Spec.Legal, Spec.about, Spec.State.step, Spec.State.init, Spec.State.on]

example : (Spec.State.init.run exOps).objs.map Spec.Obj.id = [0, 2, 3] := by decide

/-- The hypotheses of `objects_listed_partial`, `contents_served` are met. -/
example : ∃ h, run empty exOps = .ok (some h) ∧ walk h h.fresh h.first = .ok (some [0, 2, 3]) := objects_listed_partial exOps ex_legal

example : ∃ h h' p, run empty exOps = .ok (some h) ∧ get h 0 500000 = .ok (h', p) ∧ ∃ q, p = some q ∧ h'.buf q = some [4, 5, 6] := by
  obtain ⟨h, h', p, h1, h2, h3⟩ := contents_served exOps ex_legal ⟨0, 1, 2, [4, 5, 6], false, some 12⟩ (by decide) 500000
  rcases h3 with ⟨h3, _⟩ | ⟨_, h3⟩
  · cases h3
  · exact ⟨h, h', p, h1, h2, h3⟩

/-- A pointer taken at 500000 is good while garbage is collected 299 seconds later and, after the object was locked, at any time. -/
example : ∃ h h1 p h2, run empty exOps = .ok (some h) ∧ get h 0 500000 = .ok (h1, p) ∧
    run h1 [.garbage 799000, .lock 0 799001 true, .destroy 3, .garbage 9000000] = .ok (some h2) ∧ ∀ q, p = some q → h2.buf q = some [4, 5, 6] :=
  pointer_stays exOps _ ex_legal ⟨0, 1, 2, [4, 5, 6], false, some 12⟩ (by decide) 500000
    (by simp [exOps, Spec.Legal, Spec.about, Spec.State.step, Spec.State.init, Spec.State.on, Spec.State.run])
    (by simp [exOps, Spec.AllSpare, Spec.Spares, Spec.State.step, Spec.State.init, Spec.State.on, Spec.State.run])

/-- A table with two files, locked twice and unlocked once, is locked. -/
example : ∃ h h' x, run empty exOps = .ok (some h) ∧ tableLocks h ⟨0, [none, some 0, none, some 3]⟩ [(1, true), (2, true), (3, false)] = .ok (h', x) ∧
    x.count = 1 ∧ ∃ c, h'.cell 3 = some c ∧ c.locked = true := by
  obtain ⟨h, h', x, h1, h2, h3, h4, _⟩ := table_locks exOps ex_legal [none, some 0, none, some 3]
    (by
      intro i hi
      simp only [List.mem_cons, reduceCtorEq, Option.some.injEq, List.not_mem_nil, or_false, false_or] at hi
      rcases hi with rfl | rfl
      · exact ⟨⟨0, 1, 2, [4, 5, 6], false, some 12⟩, by decide, rfl, rfl⟩
      · exact ⟨⟨3, 1, 9, [8], false, none⟩, by decide, rfl, rfl⟩)
    [(1, true), (2, true), (3, false)]
  exact ⟨h, h', x, h1, h2, h3, h4 3 (by simp)⟩

/-- **C108, counterexample.** A lost object is taken for known if another open database has an object at a page of the same number. -/
theorem other_database_hides : ∃ h, run empty [.create 1 2 [1], .create 2 7 [3]] = .ok (some h) ∧
    (∀ i c, h.cell i = some c → ¬ (c.base = 1 ∧ c.block = 7)) ∧ known h 7 h.fresh h.first = .ok (some true) := by
  obtain ⟨h, e, hk⟩ := known_whatever_database [.create 1 2 [1], .create 2 7 [3]]
    (by simp [Spec.Legal, Spec.about]) 7
  refine ⟨h, e, ?_, hk⟩
  intro i c hc
  cases e
  revert hc
  show (if i = 0 then _ else if i = 1 then _ else if i = 0 then _ else _) = _ → _
  by_cases h0 : i = 0
  · subst h0
    intro hc
    cases hc
    decide
  · by_cases h1 : i = 1
    · subst h1
      intro hc
      cases hc
      decide
    · rw [if_neg h0, if_neg h1, if_neg h0]
      intro hc
      cases hc

/-- The walk from an object whose next object is gone. -/
theorem walk_gone {h : Heap} {l : List Nat} {n : Nat} (hlk : ∀ (k i : Nat), l[k]? = some i → ∃ c, h.cell i = some c ∧ c.next = (l ++ [n])[k + 1]?)
    (hn : h.cell n = none) : ∀ (f k : Nat), l.length < f + k → k ≤ l.length → walk h f (l ++ [n])[k]? = .ub
  | 0, k, h1, h2 => by omega
  | f + 1, k, h1, h2 => by
    rcases Nat.lt_or_ge k l.length with hk | hk
    · obtain ⟨c, c1, c2⟩ := hlk k l[k] (List.getElem?_eq_getElem hk)
      rw [List.getElem?_append_left hk, List.getElem?_eq_getElem hk, walk, show deref h l[k] = .ok c by simp [deref, c1], Outcome.ok_bind, c2,
        walk_gone hlk hn f (k + 1) (by omega) (by omega)]
      rfl
    · have : k = l.length := by omega
      subst this
      simp [walk, deref, hn]

/-- **C108, counterexample.** After a construction that failed, going through the list reads released memory: so does every search for lost
objects. -/
theorem failed_creation_walk (ops : List Op) (hl : Spec.Legal .init ops) (base block : Nat) :
    ∃ h h', run empty ops = .ok (some h) ∧ createBad h base block = .ok h' ∧ walk h' h'.fresh h'.first = .ub := by
  obtain ⟨h, e, hi, _⟩ := run_inv ops empty .init inv_empty hl
  generalize hs : Spec.State.init.run ops = s at hi
  obtain ⟨h1, e1, i1, _⟩ := create_inv hi base block []
  have hids : (s.step (.create base block [])).objs.map Spec.Obj.id = s.objs.map Spec.Obj.id ++ [s.made] := by simp [Spec.State.step]
  have L := i1.linked
  rw [hids] at L
  refine ⟨h, put h1 s.made none, e, ?_, ?_⟩
  · unfold createBad
    unfold create at e1
    rw [e1]
    rfl
  · have hfew := hi.few
    have hw := walk_gone (h := put h1 s.made none) (l := s.objs.map Spec.Obj.id) (n := s.made) ?_ (put_same _ _ _) (put h1 s.made none).fresh 0
      (by show _ < h1.fresh + 0; rw [i1.fresh, List.length_map]; show _ < s.made + 1 + 0; omega) (by omega)
    · rw [← hw]
      congr 1
      show h1.first = _
      rw [L.first, List.head?_eq_getElem?]
    · intro k i hk
      have hkl := (List.getElem?_eq_some_iff.1 hk).1
      obtain ⟨c, c1, _, c3⟩ := L.at_ k i (by rw [List.getElem?_append_left hkl]; exact hk)
      refine ⟨c, ?_, c3⟩
      rw [put_other]
      · exact c1
      · obtain ⟨o, ho, rfl⟩ := List.mem_map.1 (List.mem_of_getElem? hk)
        have := hi.below o ho
        omega

/-- What a pointer points to after a history. -/
def at_ (ops : List Op) (p : Nat) : Outcome (Option (Option Bytes)) := do
  match ← run empty ops with
  | none => .ok none
  | some h => .ok (some (h.buf p))

/-- **C108, counterexample.** A pointer is lost when garbage is collected more than five minutes after the last use of an object that is not locked; -/
theorem unlocked_pointer_lost : at_ [.create 1 2 [1, 2], .get 0 0, .garbage 300000] 0 = .ok (some (some [1, 2])) ∧
    at_ [.create 1 2 [1, 2], .get 0 0, .garbage 300001] 0 = .ok (some none) := by decide

/-- contents not used for 49 days and 17 hours are kept for five minutes more; -/
theorem clock_wraps : at_ [.create 1 2 [1, 2], .get 0 0, .garbage (2 ^ 32 + 5)] 0 = .ok (some (some [1, 2])) := by decide +kernel

/-- and locks are not counted: an object locked twice and unlocked once is unlocked. -/
theorem locks_not_counted : at_ [.create 1 2 [1, 2], .get 0 0, .lock 0 1 true, .lock 0 2 true, .lock 0 3 false, .garbage 400000] 0 = .ok (some none) := by decide

end Verif.Pool
