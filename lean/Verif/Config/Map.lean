import Verif.Basic

/-! # `std::map` keyed by text, as a list of pairs -/

namespace Verif.Config
open Verif

/-- `map.find(key)`. -/
def find (m : List (Str × α)) (key : Str) : Option α :=
  match m with
  | [] => none
  | (k, v) :: m => if k = key then some v else find m key

/-- Change or add the value at a key. -/
def upd (m : List (Str × α)) (key : Str) (f : Option α → α) : List (Str × α) :=
  match m with
  | [] => [(key, f none)]
  | (k, v) :: m => if k = key then (k, f (some v)) :: m else (k, v) :: upd m key f

theorem find_upd (m : List (Str × α)) (key k : Str) (f : Option α → α) :
    find (upd m key f) k = if key = k then some (f (find m key)) else find m k := by
  induction m with
  | nil => simp only [upd, find]
  | cons p m ih =>
    obtain ⟨a, v⟩ := p
    rw [upd]
    by_cases h1 : a = key
    · subst h1
      rw [if_pos rfl]
      simp only [find, if_true]
      by_cases h2 : a = k
      · rw [if_pos h2, if_pos h2]
      · rw [if_neg h2, if_neg h2, if_neg h2]
    · rw [if_neg h1]
      simp only [find, if_neg h1, ih]
      by_cases h2 : a = k
      · rw [if_pos h2, if_pos h2, if_neg (fun e => h1 (h2.trans e.symm))]
      · rw [if_neg h2, if_neg h2]

theorem find_map (m : List (Str × α)) (g : Str → α → β) (k : Str) :
    find (m.map (fun p => (p.1, g p.1 p.2))) k = (find m k).map (g k) := by
  induction m with
  | nil => rfl
  | cons p m ih =>
    simp only [List.map_cons, find]
    by_cases h : p.1 = k
    · rw [if_pos h, if_pos h, h]; rfl
    · rw [if_neg h, if_neg h, ih]

end Verif.Config
