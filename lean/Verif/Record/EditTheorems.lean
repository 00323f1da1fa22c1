import Verif.Record.EditSpec
import Verif.Record.Theorems
import Mathlib.Data.List.Nodup

/-! # Property theorems: editing a table (C37, C59) -/

namespace Verif.Record
open Verif

/-! ## The list of changed records -/

def lookup (l : List ChRec) (n : Nat) : Option ChRec := l.find? (fun c => c.num == n)

theorem lookup_cons (c : ChRec) (l : List ChRec) (n : Nat) : lookup (c :: l) n = if c.num = n then some c else lookup l n := by
  unfold lookup
  rw [List.find?_cons]
  by_cases h : c.num = n
  · simp [h]
  · rw [if_neg h]
    have : (c.num == n) = false := by simpa using h
    rw [this]

theorem lookup_none_iff (l : List ChRec) (n : Nat) : lookup l n = none ↔ n ∉ l.map ChRec.num := by
  induction l with
  | nil => simp [lookup]
  | cons c l ih =>
    rw [lookup_cons, List.map_cons, List.mem_cons, not_or]
    by_cases h : c.num = n
    · simp [h]
    · rw [if_neg h, ih]
      exact ⟨fun hh => ⟨fun e => h e.symm, hh⟩, fun hh => hh.2⟩

theorem lookup_some {l : List ChRec} {n : Nat} {c : ChRec} (h : lookup l n = some c) : c ∈ l ∧ c.num = n := by
  refine ⟨List.mem_of_find?_eq_some h, ?_⟩
  have := List.find?_some h
  simpa using this

theorem lookup_upd (l : List ChRec) (n : Nat) (c' : ChRec) (hc : c'.num = n) (m : Nat) :
    lookup (updCh n c' l) m = if m = n then (if (lookup l n).isSome then some c' else none) else lookup l m := by
  induction l with
  | nil => simp [updCh, lookup]
  | cons c l ih =>
    unfold updCh
    by_cases h : c.num = n
    · rw [if_pos h, lookup_cons, lookup_cons, lookup_cons, if_pos h]
      by_cases hm : m = n
      · subst hm; simp [hc]
      · rw [if_neg (by omega), if_neg hm, if_neg (by omega)]
    · rw [if_neg h, lookup_cons, lookup_cons, lookup_cons, if_neg h, ih]
      by_cases hm : m = n
      · subst hm; rw [if_neg h, if_pos rfl, if_pos rfl]
      · rw [if_neg hm, if_neg hm]

theorem nums_upd (l : List ChRec) (n : Nat) (c' : ChRec) (hc : c'.num = n) : (updCh n c' l).map ChRec.num = l.map ChRec.num := by
  induction l with
  | nil => rfl
  | cons c l ih =>
    unfold updCh
    by_cases h : c.num = n
    · rw [if_pos h]; simp [hc, h]
    · rw [if_neg h]; simp [ih]

theorem mem_upd {l : List ChRec} {n : Nat} {c' c : ChRec} (h : c ∈ updCh n c' l) : c = c' ∨ c ∈ l := by
  induction l with
  | nil => simp [updCh] at h
  | cons d l ih =>
    unfold updCh at h
    split at h
    · rcases List.mem_cons.mp h with h | h
      · exact .inl h
      · exact .inr (List.mem_cons_of_mem _ h)
    · rcases List.mem_cons.mp h with h | h
      · exact .inr (h ▸ List.mem_cons_self ..)
      · rcases ih h with h | h
        · exact .inl h
        · exact .inr (List.mem_cons_of_mem _ h)

theorem drop_sublist (l : List ChRec) (n : Nat) : (dropCh n l).Sublist l := by
  induction l with
  | nil => exact List.Sublist.slnil
  | cons c l ih =>
    unfold dropCh
    split
    · exact List.sublist_cons_self _ _
    · exact ih.cons_cons _

theorem lookup_drop (l : List ChRec) (n : Nat) (hn : (l.map ChRec.num).Nodup) (m : Nat) :
    lookup (dropCh n l) m = if m = n then none else lookup l m := by
  induction l with
  | nil => simp [dropCh, lookup]
  | cons c l ih =>
    rw [List.map_cons, List.nodup_cons] at hn
    unfold dropCh
    by_cases h : c.num = n
    · rw [if_pos h, lookup_cons]
      by_cases hm : m = n
      · rw [if_pos hm, hm, lookup_none_iff, ← h]; exact hn.1
      · rw [if_neg hm, if_neg (by omega)]
    · rw [if_neg h, lookup_cons, ih hn.2, lookup_cons]
      by_cases hm : m = n
      · subst hm; rw [if_neg h, if_pos rfl, if_pos rfl]
      · rw [if_neg hm, if_neg hm]

def shift (n : Nat) (c : ChRec) : ChRec := if c.num > n then { c with num := c.num - 1 } else c

theorem lookup_shift (l : List ChRec) (n : Nat) (hn : n ∉ l.map ChRec.num) (m : Nat) :
    lookup (l.map (shift n)) m = if m < n then lookup l m else (lookup l (m + 1)).map (shift n) := by
  induction l with
  | nil => simp [lookup]
  | cons c l ih =>
    rw [List.map_cons, List.mem_cons, not_or] at hn
    rw [List.map_cons, lookup_cons, ih hn.2, lookup_cons, lookup_cons]
    by_cases hc : c.num > n
    · have e : (shift n c).num = c.num - 1 := by unfold shift; rw [if_pos hc]
      rw [e]
      by_cases hm : m < n
      · rw [if_pos hm, if_pos hm, if_neg (by omega), if_neg (by omega)]
      · rw [if_neg hm, if_neg hm]
        by_cases hm2 : c.num = m + 1
        · rw [if_pos hm2, if_pos (by omega)]; rfl
        · rw [if_neg hm2, if_neg (by omega)]
    · have e : shift n c = c := by unfold shift; rw [if_neg hc]
      rw [e]
      by_cases hm : m < n
      · rw [if_pos hm, if_pos hm]
      · rw [if_neg hm, if_neg hm, if_neg (by omega), if_neg (by omega)]

theorem nodup_shift (l : List ChRec) (n : Nat) (hn : n ∉ l.map ChRec.num) (hd : (l.map ChRec.num).Nodup) :
    ((l.map (shift n)).map ChRec.num).Nodup := by
  induction l with
  | nil => simp
  | cons c l ih =>
    rw [List.map_cons, List.mem_cons, not_or] at hn
    rw [List.map_cons, List.nodup_cons] at hd
    rw [List.map_cons, List.map_cons, List.nodup_cons]
    refine ⟨?_, ih hn.2 hd.2⟩
    rw [← lookup_none_iff, lookup_shift l n hn.2]
    have hcn : c.num ≠ n := fun e => hn.1 e.symm
    by_cases hc : c.num > n
    · have e : (shift n c).num = c.num - 1 := by unfold shift; rw [if_pos hc]
      rw [e, if_neg (by omega), show c.num - 1 + 1 = c.num by omega, (lookup_none_iff l c.num).mpr hd.1]
      rfl
    · have e : shift n c = c := by unfold shift; rw [if_neg hc]
      rw [e, if_pos (by omega), (lookup_none_iff l c.num).mpr hd.1]

/-! ## Refinement -/

/-- What an entry for a record can look like. -/
def Good (e : EEnv) (c : ChRec) : Prop :=
  (c.num < e.phys → c.kind = .deleted ∧ c.bufs = .null) ∧
  (e.phys ≤ c.num → c.kind = .inserted ∧ ∃ marks rec, c.bufs = .live marks rec ∧ marks.length = e.fields.length ∧ rec.length = e.tab.reclen)

/-- The record held by an entry. -/
def recOf (c : ChRec) : Option Bytes :=
  match c.bufs with
  | .live _ rec => some rec
  | _ => none

structure Rel (e : EEnv) (s : ESt) (v : Spec.View) : Prop where
  editing : s.edit = v.editing
  added : s.added = v.added
  small : s.added < 2 ^ 32
  nodup : (s.chs.map ChRec.num).Nodup
  good : ∀ c ∈ s.chs, Good e c
  del : ∀ n, v.del n = decide (n < e.phys ∧ (lookup s.chs n).isSome = true)
  new : ∀ n, v.new n = if n < e.phys then none else (lookup s.chs n).bind recOf

theorem idle_rel (e : EEnv) : Rel e ⟨false, [], 0⟩ Spec.View.idle := by
  refine ⟨rfl, rfl, by decide, by simp, by simp, ?_, ?_⟩
  · intro n; simp [Spec.View.idle, lookup]
  · intro n; simp [Spec.View.idle, lookup]

theorem rel_new_isSome {e : EEnv} {s : ESt} {v : Spec.View} (h : Rel e s v) {n : Nat} (hn : e.phys ≤ n) :
    (v.new n).isSome = (lookup s.chs n).isSome := by
  rw [h.new, if_neg (by omega)]
  cases hl : lookup s.chs n with
  | none => rfl
  | some c =>
    obtain ⟨h1, h2⟩ := lookup_some hl
    obtain ⟨_, marks, rec, h3, _⟩ := (h.good c h1).2 (by omega)
    simp [recOf, h3]

theorem store_fit {e : EEnv} (hf : Spec.FieldsFit e) {f : EField} {fi : Nat} (hfi : e.fields[fi]? = some f) {enc rec : Bytes}
    (he : enc.length = f.slot.size) (hr : rec.length = e.tab.reclen) :
    store rec f.slot.offset enc = .ok (Spec.overlay rec f.slot.offset enc) ∧ (Spec.overlay rec f.slot.offset enc).length = e.tab.reclen := by
  have := hf f (List.mem_of_getElem? hfi)
  refine ⟨store_ok (by omega), ?_⟩
  unfold Spec.overlay
  rw [stored_length _ _ _ (by omega), hr]


/-- The relation between the outcome of an operation and its specification. -/
def Refines (e : EEnv) (r : Outcome ESt) (v v' : Spec.View) (B : Prop) : Prop :=
  (∀ s', r = .ok s' → Rel e s' v') ∧ (r = .throw → v' = v) ∧ (r = .ub ↔ B)

theorem refines_ok {e : EEnv} {r : Outcome ESt} {s' : ESt} {v v' w : Spec.View} {B : Prop} (hr : r = .ok s') (hv : v' = w)
    (h : Rel e s' w) (hB : ¬ B) : Refines e r v v' B := by
  subst hr hv
  exact ⟨fun s hs => (by cases hs; exact h), fun hh => (by cases hh), ⟨fun hh => (by cases hh), fun hh => absurd hh hB⟩⟩

theorem refines_throw {e : EEnv} {r : Outcome ESt} {v v' : Spec.View} {B : Prop} (hr : r = .throw) (hv : v' = v) (hB : ¬ B) :
    Refines e r v v' B := by
  subst hr hv
  exact ⟨fun s hs => (by cases hs), fun _ => rfl, ⟨fun hh => (by cases hh), fun hh => absurd hh hB⟩⟩

theorem refines_ub {e : EEnv} {r : Outcome ESt} {v v' : Spec.View} {B : Prop} (hr : r = .ub) (hB : B) :
    Refines e r v v' B := by
  subst hr
  exact ⟨fun s hs => (by cases hs), fun hh => (by cases hh), ⟨fun _ => hB, fun _ => rfl⟩⟩

theorem begin_refines (e : EEnv) (s : ESt) (v : Spec.View) (h : Rel e s v) :
    Refines e (beginEdit e s) v (Spec.eff e v .begin) False := by
  by_cases h1 : s.edit = true
  · have h2 : v.editing = true := by rw [← h.editing]; exact h1
    refine refines_ok (s' := s) (w := v) (by unfold beginEdit; rw [if_pos h1]) ?_ h id
    simp only [Spec.eff]
    cases v
    simp only at h2
    subst h2
    split <;> rfl
  · by_cases h2 : e.readonly = true
    · exact refines_throw (by unfold beginEdit; rw [if_neg h1, if_pos h2]) (by simp only [Spec.eff]; rw [if_pos h2]) id
    · refine refines_ok (s' := { s with edit := true }) (w := { v with editing := true })
        (by unfold beginEdit; rw [if_neg h1, if_neg h2]) (by simp only [Spec.eff]; rw [if_neg h2]) ?_ id
      exact ⟨rfl, h.added, h.small, h.nodup, h.good, h.del, h.new⟩

theorem restore_refines (e : EEnv) (s : ESt) (v : Spec.View) (h : Rel e s v) (n fi : Nat) :
    Refines e (restoreEdit e s n fi) v (Spec.eff e v (.restore n fi)) False := by
  refine refines_ok (s' := s) (w := v) ?_ rfl h id
  unfold restoreEdit
  by_cases hn : n ≥ e.phys
  · rw [if_pos hn]
  · rw [if_neg hn]
    cases hl : findCh s n with
    | none => rfl
    | some c =>
      obtain ⟨h1, h2⟩ := lookup_some hl
      obtain ⟨h3, _⟩ := (h.good c h1).1 (by omega)
      dsimp only
      rw [if_pos (by rw [h3]; decide)]

theorem destroyAll_ok (e : EEnv) (l : List ChRec) (hl : ∀ c ∈ l, Good e c) : destroyAll l = .ok () := by
  induction l with
  | nil => rfl
  | cons c l ih =>
    have hc : destroy c = .ok () := by
      have hg := hl c (List.mem_cons_self ..)
      unfold destroy
      rcases Nat.lt_or_ge c.num e.phys with h1 | h1
      · rw [(hg.1 h1).2]
      · obtain ⟨_, m, r, h2, _⟩ := hg.2 h1
        rw [h2]
    rw [destroyAll, hc]
    exact ih (fun x hx => hl x (List.mem_cons_of_mem _ hx))

theorem cancel_refines (e : EEnv) (s : ESt) (v : Spec.View) (h : Rel e s v) :
    Refines e (cancelEdit s) v (Spec.eff e v .cancel) False := by
  refine refines_ok (s' := ⟨false, [], 0⟩) (w := Spec.View.idle) ?_ rfl (idle_rel e) id
  unfold cancelEdit
  rw [destroyAll_ok e _ h.good]
  rfl

/-! ### Marking a stored record -/

theorem mark_old_deleted (e : EEnv) (s : ESt) (v : Spec.View) (h : Rel e s v) (n : Nat) (hn : n < e.phys) :
    Refines e (setType e s n .deleted) v (Spec.eff e v (.mark n .deleted)) False := by
  have hv : Spec.eff e v (.mark n .deleted) = { v with del := fun m => if m = n then true else v.del m } := by
    simp only [Spec.eff]; rw [if_pos hn]
  cases hl : findCh s n with
  | none =>
    have hl' : lookup s.chs n = none := hl
    refine refines_ok (s' := { s with chs := newCh e .deleted n :: s.chs }) (by unfold setType; rw [if_pos hn]; dsimp only; rw [hl]) hv ?_ id
    refine ⟨h.editing, h.added, h.small, ?_, ?_, ?_, ?_⟩
    · dsimp only
      rw [List.map_cons, List.nodup_cons]
      exact ⟨(lookup_none_iff _ _).mp hl', h.nodup⟩
    · intro c hc
      rcases List.mem_cons.mp hc with rfl | hc
      · exact ⟨fun _ => ⟨rfl, rfl⟩, fun h1 => absurd h1 (by simp only [newCh]; omega)⟩
      · exact h.good c hc
    · intro m
      dsimp only
      rw [lookup_cons]
      simp only [newCh]
      by_cases hm : m = n
      · subst hm; simp [hn]
      · rw [if_neg hm, if_neg (by omega), h.del]
    · intro m
      dsimp only
      rw [h.new, lookup_cons]
      simp only [newCh]
      by_cases hm : m < e.phys
      · rw [if_pos hm, if_pos hm]
      · rw [if_neg hm, if_neg hm, if_neg (by omega)]
  | some c =>
    have hl' : lookup s.chs n = some c := hl
    obtain ⟨h1, h2⟩ := lookup_some hl
    obtain ⟨h3, h4⟩ := (h.good c h1).1 (by omega)
    refine refines_ok (s' := { s with chs := updCh n c s.chs }) (by
      unfold setType; rw [if_pos hn]; dsimp only; rw [hl]; dsimp only
      cases c
      simp only at h3 h4
      subst h3 h4
      rfl) hv ?_ id
    refine ⟨h.editing, h.added, h.small, ?_, ?_, ?_, ?_⟩
    · dsimp only
      rw [nums_upd _ _ _ h2]; exact h.nodup
    · intro d hd
      rcases mem_upd hd with rfl | hd
      · exact h.good _ h1
      · exact h.good d hd
    · intro m
      dsimp only
      rw [lookup_upd _ _ _ h2, hl']
      by_cases hm : m = n
      · subst hm; simp [hn]
      · rw [if_neg hm, if_neg hm, h.del]
    · intro m
      dsimp only
      rw [h.new, lookup_upd _ _ _ h2]
      by_cases hm : m < e.phys
      · rw [if_pos hm, if_pos hm]
      · rw [if_neg hm, if_neg hm, if_neg (by omega)]

theorem mark_old_restored (e : EEnv) (s : ESt) (v : Spec.View) (h : Rel e s v) (n : Nat) (hn : n < e.phys) :
    Refines e (setType e s n .notChanged) v (Spec.eff e v (.mark n .notChanged)) False := by
  have hv : Spec.eff e v (.mark n .notChanged) = { v with del := fun m => if m = n then false else v.del m } := by
    simp only [Spec.eff]; rw [if_pos hn]
  cases hl : findCh s n with
  | none =>
    have hl' : lookup s.chs n = none := hl
    refine refines_ok (s' := s) (by unfold setType; rw [if_pos hn]; dsimp only; rw [hl]) hv ?_ id
    refine ⟨h.editing, h.added, h.small, h.nodup, h.good, ?_, h.new⟩
    intro m
    dsimp only
    by_cases hm : m = n
    · subst hm; rw [if_pos rfl, hl']; simp
    · rw [if_neg hm, h.del]
  | some c =>
    obtain ⟨h1, h2⟩ := lookup_some hl
    obtain ⟨h3, h4⟩ := (h.good c h1).1 (by omega)
    have hdst : destroy c = .ok () := by unfold destroy; rw [h4]
    refine refines_ok (s' := { s with chs := dropCh n s.chs }) (by
      unfold setType; rw [if_pos hn]; dsimp only; rw [hl]; dsimp only; rw [hdst]; rfl) hv ?_ id
    refine ⟨h.editing, h.added, h.small, ?_, ?_, ?_, ?_⟩
    · exact h.nodup.sublist ((drop_sublist _ _).map _)
    · intro d hd
      exact h.good d ((drop_sublist _ _).subset hd)
    · intro m
      dsimp only
      rw [lookup_drop _ _ h.nodup]
      by_cases hm : m = n
      · subst hm; rw [if_pos rfl, if_pos rfl]; simp
      · rw [if_neg hm, if_neg hm, h.del]
    · intro m
      dsimp only
      rw [h.new, lookup_drop _ _ h.nodup]
      by_cases hm : m < e.phys
      · rw [if_pos hm, if_pos hm]
      · rw [if_neg hm, if_neg hm, if_neg (by omega)]

/-! ### Marking an added record -/

theorem mark_new_inserted (e : EEnv) (s : ESt) (v : Spec.View) (h : Rel e s v) (n : Nat) (hn : ¬ n < e.phys) :
    Refines e (setType e s n .inserted) v (Spec.eff e v (.mark n .inserted)) False := by
  have hsome := rel_new_isSome h (show e.phys ≤ n by omega)
  cases hl : findCh s n with
  | some c =>
    have hl' : lookup s.chs n = some c := hl
    obtain ⟨h1, h2⟩ := lookup_some hl
    obtain ⟨h3, h4⟩ := (h.good c h1).2 (by omega)
    rw [hl'] at hsome
    refine refines_ok (s' := { s with chs := updCh n c s.chs }) (w := v) (by
      unfold setType; rw [if_neg hn]; dsimp only; rw [hl]; dsimp only
      cases c
      simp only at h3
      subst h3
      rfl) (by simp only [Spec.eff]; exact if_pos (.inr (.inl hsome))) ?_ id
    refine ⟨h.editing, h.added, h.small, ?_, ?_, ?_, ?_⟩
    · dsimp only; rw [nums_upd _ _ _ h2]; exact h.nodup
    · intro d hd
      rcases mem_upd hd with rfl | hd
      · exact h.good _ h1
      · exact h.good d hd
    · intro m
      dsimp only
      rw [lookup_upd _ _ _ h2, hl', h.del]
      by_cases hm : m = n
      · subst hm; rw [hl']; simp
      · rw [if_neg hm]
    · intro m
      dsimp only
      rw [lookup_upd _ _ _ h2, hl', h.new]
      by_cases hm : m = n
      · subst hm; rw [hl']; simp
      · rw [if_neg hm]
  | none =>
    have hl' : lookup s.chs n = none := hl
    rw [hl'] at hsome
    by_cases hgt : n > (e.phys + s.added) % 2 ^ 32
    · refine refines_throw (by unfold setType; rw [if_neg hn]; dsimp only; rw [hl]; dsimp only; exact if_pos hgt) ?_ id
      simp only [Spec.eff]
      exact if_pos (.inr (.inr (by rw [← h.added]; exact hgt)))
    · refine refines_ok (s' := { s with chs := newCh e .inserted n :: s.chs, added := (s.added + 1) % 2 ^ 32 })
        (w := { v with
          new := fun m => if m = n then some (List.replicate e.tab.reclen 0) else v.new m
          added := (v.added + 1) % 2 ^ 32 })
        (by unfold setType; rw [if_neg hn]; dsimp only; rw [hl]; dsimp only; exact if_neg hgt) ?_ ?_ id
      · simp only [Spec.eff]
        refine if_neg ?_
        rw [← h.added, hsome]
        rintro (hh | hh | hh)
        · exact hn hh
        · cases hh
        · exact hgt hh
      · refine ⟨h.editing, by simp only [h.added], Nat.mod_lt _ (by decide), ?_, ?_, ?_, ?_⟩
        · dsimp only
          rw [List.map_cons, List.nodup_cons]
          exact ⟨(lookup_none_iff _ _).mp hl', h.nodup⟩
        · intro c hc
          rcases List.mem_cons.mp hc with rfl | hc
          · refine ⟨fun h1 => absurd h1 (by simp only [newCh]; omega), fun _ => ⟨rfl, _, _, rfl, ?_, ?_⟩⟩ <;>
              exact List.length_replicate
          · exact h.good c hc
        · intro m
          dsimp only
          rw [h.del, lookup_cons]
          by_cases hm : n = m
          · have : ¬ m < e.phys := by omega
            simp [this]
          · rw [if_neg (show ¬ (newCh e .inserted n).num = m from hm)]
        · intro m
          dsimp only
          rw [h.new, lookup_cons]
          by_cases hm : m = n
          · subst hm; rw [if_pos rfl, if_neg hn, if_pos (show (newCh e .inserted m).num = m from rfl)]; rfl
          · rw [if_neg hm, if_neg (show ¬ (newCh e .inserted n).num = m from fun hh => hm hh.symm)]

theorem shift_good {e : EEnv} {n : Nat} (hn : e.phys ≤ n) {d : ChRec} (hg : Good e d) : Good e (shift n d) := by
  unfold shift
  split
  · rename_i hgt
    exact ⟨fun h1 => absurd h1 (by simp only; omega), fun _ => hg.2 (by omega)⟩
  · exact hg

theorem recOf_shift (n : Nat) (c : ChRec) : recOf (shift n c) = recOf c := by
  have : (shift n c).bufs = c.bufs := by unfold shift; split <;> rfl
  unfold recOf
  rw [this]

theorem dec32_eq {a : Nat} (h : a < 2 ^ 32) : dec32 a = if a = 0 then 4294967295 else a - 1 := by
  unfold dec32
  split <;> omega

theorem mark_new_deleted (e : EEnv) (s : ESt) (v : Spec.View) (h : Rel e s v) (n : Nat) (hn : ¬ n < e.phys) :
    Refines e (setType e s n .deleted) v (Spec.eff e v (.mark n .deleted)) False := by
  have hsome := rel_new_isSome h (show e.phys ≤ n by omega)
  have hv : Spec.eff e v (.mark n .deleted) = { v with
      new := fun m => if m < n then v.new m else v.new (m + 1)
      added := if (v.new n).isSome then (if v.added = 0 then 4294967295 else v.added - 1) else v.added } := by
    simp only [Spec.eff]; exact if_neg hn
  have hmain : ∀ l : List ChRec, (l.map ChRec.num).Nodup → n ∉ l.map ChRec.num → (∀ d ∈ l, Good e d) →
      (∀ m, m ≠ n → lookup l m = lookup s.chs m) → ∀ a, a < 2 ^ 32 → a = (if (v.new n).isSome then (if v.added = 0 then 4294967295 else v.added - 1) else v.added) →
      Rel e ⟨s.edit, l.map (shift n), a⟩ { v with
        new := fun m => if m < n then v.new m else v.new (m + 1)
        added := if (v.new n).isSome then (if v.added = 0 then 4294967295 else v.added - 1) else v.added } := by
    intro l hnd hnot hg hlk a hal ha
    refine ⟨h.editing, ha, hal, nodup_shift _ _ hnot hnd, ?_, ?_, ?_⟩
    · intro c hc
      obtain ⟨d, hd, rfl⟩ := List.mem_map.mp hc
      exact shift_good (by omega) (hg d hd)
    · intro m
      dsimp only
      rw [h.del, lookup_shift l n hnot m]
      by_cases hm : m < n
      · rw [if_pos hm, hlk m (by omega)]
      · have : ¬ m < e.phys := by omega
        simp [this]
    · intro m
      dsimp only
      rw [h.new, h.new, lookup_shift l n hnot m]
      by_cases hm : m < n
      · rw [if_pos hm, if_pos hm, hlk m (by omega)]
      · rw [if_neg hm, if_neg hm, if_neg (by omega), if_neg (by omega), hlk (m + 1) (by omega)]
        cases lookup s.chs (m + 1) with
        | none => rfl
        | some c => exact (recOf_shift n c).symm
  cases hl : findCh s n with
  | none =>
    have hl' : lookup s.chs n = none := hl
    rw [hl'] at hsome
    refine refines_ok (s' := ⟨s.edit, s.chs.map (shift n), s.added⟩) (by
      unfold setType; rw [if_neg hn]; dsimp only; rw [hl]; rfl) hv ?_ id
    refine hmain s.chs h.nodup ((lookup_none_iff _ _).mp hl') h.good (fun m _ => rfl) _ h.small ?_
    rw [hsome, if_neg (by intro hh; cases hh), h.added]
  | some c =>
    have hl' : lookup s.chs n = some c := hl
    rw [hl'] at hsome
    obtain ⟨h1, h2⟩ := lookup_some hl
    obtain ⟨h3, marks, rec, h4, _⟩ := (h.good c h1).2 (by omega)
    have hdst : destroy c = .ok () := by unfold destroy; rw [h4]
    refine refines_ok (s' := ⟨s.edit, (dropCh n s.chs).map (shift n), dec32 s.added⟩) (by
      unfold setType; rw [if_neg hn]; dsimp only; rw [hl]; dsimp only; rw [hdst]; rfl) hv ?_ id
    refine hmain _ (h.nodup.sublist ((drop_sublist _ _).map _)) ?_ (fun d hd => h.good d ((drop_sublist _ _).subset hd)) ?_ _ (Nat.mod_lt _ (by decide)) ?_
    · rw [← lookup_none_iff, lookup_drop _ _ h.nodup, if_pos rfl]
    · intro m hm
      rw [lookup_drop _ _ h.nodup, if_neg hm]
    · rw [hsome, if_pos (by rfl), ← h.added, dec32_eq (h.small)]

theorem mark_refines (e : EEnv) (s : ESt) (v : Spec.View) (h : Rel e s v) (n : Nat) (k : Kind) :
    Refines e (setType e s n k) v (Spec.eff e v (.mark n k)) False := by
  by_cases hn : n < e.phys
  · cases k with
    | changed => exact refines_throw (by unfold setType; rw [if_pos hn]) rfl id
    | inserted => exact refines_throw (by unfold setType; rw [if_pos hn]) (by simp only [Spec.eff]; exact if_pos (.inl hn)) id
    | deleted => exact mark_old_deleted e s v h n hn
    | notChanged => exact mark_old_restored e s v h n hn
  · cases k with
    | changed => exact refines_throw (by unfold setType; rw [if_neg hn]) rfl id
    | notChanged => exact refines_throw (by unfold setType; rw [if_neg hn]) (by simp only [Spec.eff]; exact if_neg hn) id
    | inserted => exact mark_new_inserted e s v h n hn
    | deleted => exact mark_new_deleted e s v h n hn

/-! ### Storing a value -/

theorem put_into_ok {e : EEnv} (hf : Spec.FieldsFit e) {f : EField} {fi : Nat} (hfi : e.fields[fi]? = some f) {enc rec : Bytes}
    {marks : List Bool} (he : enc.length = f.slot.size) (hr : rec.length = e.tab.reclen) (hm : marks.length = e.fields.length)
    (n : Nat) (k : Kind) : putInto f fi enc ⟨n, k, .live marks rec⟩ =
      .ok ⟨n, k, .live (marks.set fi true) (Spec.overlay rec f.slot.offset enc)⟩ := by
  have hfl : fi < marks.length := by rw [hm]; exact (List.getElem?_eq_some_iff.mp hfi).1
  unfold putInto
  dsimp only
  rw [if_pos hfl, (store_fit hf hfi he hr).1]
  rfl

/-- Storing in an added record, once the entry has been found or created. -/
theorem put_new_rel (e : EEnv) (s : ESt) (v : Spec.View) (h : Rel e s v) (n : Nat) (hn : ¬ n < e.phys)
    (l : List ChRec) (c : ChRec) (hnd : (l.map ChRec.num).Nodup)
    (hgood : ∀ d ∈ l, Good e d) (hlk : ∀ m, lookup l m = if m = n then some c else lookup s.chs m) (b : Bytes) (hb : recOf c = some b) :
    Rel e { s with chs := l } { v with new := fun m => if m = n then some b else v.new m } := by
  refine ⟨h.editing, h.added, h.small, hnd, hgood, ?_, ?_⟩
  · intro m
    dsimp only
    rw [h.del, hlk]
    by_cases hm : m = n
    · subst hm; simp [hn]
    · rw [if_neg hm]
  · intro m
    dsimp only
    rw [hlk, h.new]
    by_cases hm : m = n
    · subst hm; rw [if_pos rfl, if_neg hn, if_pos rfl]; exact hb.symm
    · rw [if_neg hm, if_neg hm]

theorem put_refines (e : EEnv) (ho : Spec.Open e) (s : ESt) (v : Spec.View) (h : Rel e s v) (n fi : Nat) (nul : Bool) (enc : Bytes)
    (hop : Spec.OpFits e (.put n fi nul enc)) :
    Refines e (setEdit e s n fi nul enc) v (Spec.eff e v (.put n fi nul enc)) (Spec.Broken e v (.put n fi nul enc)) := by
  obtain ⟨hw, hfit⟩ := ho
  by_cases hed : s.edit = true
  case neg =>
    have hve : v.editing = false := by rw [← h.editing]; simpa using hed
    refine refines_ok (s' := s) (w := v) (by unfold setEdit; exact if_pos (by simpa using hed)) ?_ h ?_
    · simp only [Spec.eff]
      cases e.fields[fi]? with
      | none => rfl
      | some f => exact if_pos (.inl hve)
    · simp only [Spec.Broken]
      rintro ⟨h1, _⟩
      rw [hve] at h1; cases h1
  have hve : v.editing = true := by rw [← h.editing]; exact hed
  have hst : ∀ {x y : Outcome ESt}, (if (!s.edit) = true then x else y) = y := by
    intro x y; rw [hed]; rfl
  cases hfi : e.fields[fi]? with
  | none =>
    refine refines_ub (by unfold setEdit; rw [hst, hfi]) ?_
    simp only [Spec.Broken, hfi]
    exact ⟨hve, trivial⟩
  | some f =>
    have henc := hop f hfi
    by_cases hver : f.isVersion = true
    · refine refines_ok (s' := s) (w := v) (by unfold setEdit; rw [hst, hfi]; exact if_pos hver) ?_ h ?_
      · simp only [Spec.eff, hfi]; exact if_pos (.inr (.inl hver))
      · simp only [Spec.Broken, hfi]
        rintro ⟨_, h1, _⟩
        rw [h1] at hver; cases hver
    have hver' : f.isVersion = false := by simpa using hver
    by_cases hnul : nul = true ∧ f.slot.nullable = false
    · refine refines_ok (s' := s) (w := v) (by
        unfold setEdit; rw [hst, hfi]; dsimp only; rw [if_neg hver]; exact if_pos (by rw [hnul.1, hnul.2]; rfl)) ?_ h ?_
      · simp only [Spec.eff, hfi]; exact if_pos (.inr (.inr (.inl hnul)))
      · simp only [Spec.Broken, hfi]
        rintro ⟨_, _, h1, _⟩
        exact h1 hnul
    have hnul' : ¬ ((nul && !f.slot.nullable) = true) := by
      intro hh
      rw [Bool.and_eq_true, Bool.not_eq_true'] at hh
      exact hnul hh
    by_cases hn : n < e.phys
    · have hdl : findCh s n = none ↔ v.del n = false := by
        show lookup s.chs n = none ↔ _
        rw [h.del]
        cases lookup s.chs n <;> simp [hn]
      have hbr : Spec.Broken e v (.put n fi nul enc) ↔ ¬ (Spec.raw (Spec.record e.tab n) f.slot = enc ∧ findCh s n = none) := by
        simp only [Spec.Broken, hfi]
        constructor
        · rintro ⟨_, _, _, (⟨_, h1⟩ | ⟨h1, _⟩)⟩
          · rintro ⟨h2, h3⟩
            rcases h1 with h1 | h1
            · rw [hdl.mp h3] at h1; cases h1
            · exact h1 h2
          · omega
        · intro hc
          refine ⟨hve, hver', hnul, .inl ⟨hn, ?_⟩⟩
          by_cases hd : v.del n = true
          · exact .inl hd
          · exact .inr (fun hh => hc ⟨hh, hdl.mpr (by simpa using hd)⟩)
      have hval : setEdit e s n fi nul enc = if Spec.raw (Spec.record e.tab n) f.slot = enc ∧ findCh s n = none then .ok s else .ub := by
        unfold setEdit
        rw [hst, hfi]
        dsimp only
        rw [if_neg hver, if_neg hnul', if_pos hn, getRecord_ok hw hn, Outcome.ok_bind,
          load_ok (by rw [record_length hw hn]; exact hfit f (List.mem_of_getElem? hfi)), Outcome.ok_bind]
        rfl
      by_cases hc : Spec.raw (Spec.record e.tab n) f.slot = enc ∧ findCh s n = none
      · refine refines_ok (s' := s) (w := v) (by rw [hval, if_pos hc]) ?_ h (fun hb => hbr.mp hb hc)
        simp only [Spec.eff, hfi]; exact if_pos (.inr (.inr (.inr hn)))
      · exact refines_ub (by rw [hval, if_neg hc]) (hbr.mpr hc)
    · have heff : Spec.eff e v (.put n fi nul enc) =
          (let b := Spec.overlay ((v.new n).getD (List.replicate e.tab.reclen 0)) f.slot.offset enc
          { v with new := fun m => if m = n then some b else v.new m }) := by
        simp only [Spec.eff, hfi]
        refine if_neg ?_
        rintro (hh | hh | hh | hh)
        · rw [hve] at hh; cases hh
        · exact hver hh
        · exact hnul hh
        · exact hn hh
      have hge : e.phys ≤ n := by omega
      have hsome := rel_new_isSome h hge
      cases hl : findCh s n with
      | some c =>
        have hl' : lookup s.chs n = some c := hl
        obtain ⟨h1, h2⟩ := lookup_some hl
        obtain ⟨h3, marks, rec, h4, h5, h6⟩ := (h.good c h1).2 (by omega)
        have hnew : v.new n = some rec := by
          rw [h.new, if_neg hn, hl']; simp only [Option.bind, recOf, h4]
        obtain ⟨cn, ck, cb⟩ := c
        simp only at h2 h3 h4
        subst h2 h3 h4
        refine refines_ok (s' := { s with chs := updCh cn ⟨cn, .inserted, .live (marks.set fi true) (Spec.overlay rec f.slot.offset enc)⟩ s.chs })
          ?_ heff ?_ ?_
        · unfold setEdit
          rw [hst, hfi]
          dsimp only
          rw [if_neg hver, if_neg hnul', if_neg hn, hl]
          dsimp only
          rw [put_into_ok hfit hfi henc h6 h5, Outcome.ok_bind]
        · have hgc : Good e ⟨cn, .inserted, .live (marks.set fi true) (Spec.overlay rec f.slot.offset enc)⟩ := by
            refine ⟨fun h7 => absurd h7 hn, fun _ => ⟨rfl, _, _, rfl, ?_, (store_fit hfit hfi henc h6).2⟩⟩
            rw [List.length_set, h5]
          rw [hnew]
          refine put_new_rel e s v h cn hn _ ⟨cn, .inserted, .live (marks.set fi true) (Spec.overlay rec f.slot.offset enc)⟩ ?_ ?_ ?_ _ rfl
          · rw [nums_upd _ cn _ rfl]; exact h.nodup
          · intro d hd
            rcases mem_upd hd with rfl | hd
            · exact hgc
            · exact h.good d hd
          · intro m
            rw [lookup_upd _ cn _ rfl, hl']
            rfl
        · simp only [Spec.Broken, hfi]
          rintro ⟨_, _, _, (⟨h7, _⟩ | ⟨_, h7⟩)⟩
          · exact hn h7
          · rw [hnew] at h7; cases h7
      | none =>
        have hl' : lookup s.chs n = none := hl
        have hnone : v.new n = none := by rw [h.new, if_neg hn, hl']; rfl
        by_cases heq : n = e.phys
        · refine refines_ub ?_ ?_
          · unfold setEdit
            rw [hst, hfi]
            dsimp only
            rw [if_neg hver, if_neg hnul', if_neg hn, hl]
            dsimp only
            rw [if_pos heq]
          · simp only [Spec.Broken, hfi]
            exact ⟨hve, hver', hnul, .inr ⟨heq, hnone⟩⟩
        · have hz : (List.replicate e.tab.reclen (0 : Byte)).length = e.tab.reclen := List.length_replicate
          have hmk : (List.replicate e.fields.length false).length = e.fields.length := List.length_replicate
          refine refines_ok (s' := { s with chs := ⟨n, .inserted, .live ((List.replicate e.fields.length false).set fi true)
            (Spec.overlay (List.replicate e.tab.reclen 0) f.slot.offset enc)⟩ :: s.chs }) ?_ heff ?_ ?_
          · unfold setEdit
            rw [hst, hfi]
            dsimp only
            rw [if_neg hver, if_neg hnul', if_neg hn, hl]
            dsimp only
            rw [if_neg heq, show newCh e .inserted n = ⟨n, .inserted, .live (List.replicate e.fields.length false) (List.replicate e.tab.reclen 0)⟩ from rfl,
              put_into_ok hfit hfi henc hz hmk, Outcome.ok_bind]
          · have hgc : Good e ⟨n, .inserted, .live ((List.replicate e.fields.length false).set fi true)
                (Spec.overlay (List.replicate e.tab.reclen 0) f.slot.offset enc)⟩ := by
              refine ⟨fun h7 => absurd h7 hn, fun _ => ⟨rfl, _, _, rfl, ?_, (store_fit hfit hfi henc hz).2⟩⟩
              rw [List.length_set, hmk]
            rw [hnone]
            refine put_new_rel e s v h n hn _ ⟨n, .inserted, .live ((List.replicate e.fields.length false).set fi true)
              (Spec.overlay (List.replicate e.tab.reclen 0) f.slot.offset enc)⟩ ?_ ?_ ?_ _ rfl
            · rw [List.map_cons, List.nodup_cons]
              exact ⟨(lookup_none_iff _ _).mp hl', h.nodup⟩
            · intro d hd
              rcases List.mem_cons.mp hd with rfl | hd
              · exact hgc
              · exact h.good d hd
            · intro m
              rw [lookup_cons]
              by_cases hm : m = n
              · subst hm; rw [if_pos rfl]
              · rw [if_neg hm, if_neg (show ¬ n = m by omega)]
          · simp only [Spec.Broken, hfi]
            rintro ⟨_, _, _, (⟨h7, _⟩ | ⟨h7, _⟩)⟩
            · exact hn h7
            · exact heq h7

theorem step_refines (e : EEnv) (ho : Spec.Open e) (s : ESt) (v : Spec.View) (h : Rel e s v) (op : EOp) (hop : Spec.OpFits e op) :
    Refines e (estep e s op) v (Spec.eff e v op) (Spec.Broken e v op) := by
  cases op with
  | begin => exact begin_refines e s v h
  | put n fi nul enc => exact put_refines e ho s v h n fi nul enc hop
  | restore n fi => exact restore_refines e s v h n fi
  | mark n k => exact mark_refines e s v h n k
  | cancel => exact cancel_refines e s v h

theorem run_refines (e : EEnv) (ho : Spec.Open e) (ops : List EOp) (hops : ∀ op ∈ ops, Spec.OpFits e op) (s : ESt) (v : Spec.View)
    (h : Rel e s v) :
    (∃ s', erun e ops s = .ok s' ∧ Rel e s' (ops.foldl (Spec.eff e) v) ∧
      ∀ pre op post, ops = pre ++ op :: post → ¬ Spec.Broken e (pre.foldl (Spec.eff e) v) op) ∨
    (erun e ops s = .ub ∧ ∃ pre op post, ops = pre ++ op :: post ∧ Spec.Broken e (pre.foldl (Spec.eff e) v) op) := by
  induction ops generalizing s v with
  | nil =>
    refine .inl ⟨s, rfl, h, ?_⟩
    intro pre op post hh
    simp at hh
  | cons op ops ih =>
    have hop := hops op (List.mem_cons_self ..)
    have hrest : ∀ o ∈ ops, Spec.OpFits e o := fun o ho => hops o (List.mem_cons_of_mem _ ho)
    obtain ⟨r1, r2, r3⟩ := step_refines e ho s v h op hop
    have key : ∀ s1, Rel e s1 (Spec.eff e v op) → estep e s op ≠ .ub → erun e (op :: ops) s = erun e ops s1 →
        (∃ s', erun e (op :: ops) s = .ok s' ∧ Rel e s' ((op :: ops).foldl (Spec.eff e) v) ∧
          ∀ pre o post, op :: ops = pre ++ o :: post → ¬ Spec.Broken e (pre.foldl (Spec.eff e) v) o) ∨
        (erun e (op :: ops) s = .ub ∧ ∃ pre o post, op :: ops = pre ++ o :: post ∧ Spec.Broken e (pre.foldl (Spec.eff e) v) o) := by
      intro s1 hr hne hrun
      rcases ih hrest s1 (Spec.eff e v op) hr with ⟨s', h1, h2, h3⟩ | ⟨h1, pre, o, post, h2, h3⟩
      · refine .inl ⟨s', by rw [hrun, h1], h2, ?_⟩
        intro pre o post hh
        cases pre with
        | nil =>
          simp only [List.nil_append, List.cons.injEq] at hh
          rw [← hh.1]
          exact fun hb => hne (r3.mpr hb)
        | cons p pre =>
          simp only [List.cons_append, List.cons.injEq] at hh
          rw [← hh.1]
          exact h3 pre o post hh.2
      · exact .inr ⟨by rw [hrun, h1], op :: pre, o, post, by rw [h2]; rfl, h3⟩
    cases hst : estep e s op with
    | ok s1 => exact key s1 (r1 s1 hst) (by rw [hst]; exact fun hh => by cases hh) (by rw [erun, hst])
    | throw => exact key s (by rw [r2 hst]; exact h) (by rw [hst]; exact fun hh => by cases hh) (by rw [erun, hst])
    | ub => exact .inr ⟨by rw [erun, hst], [], op, ops, rfl, r3.mp hst⟩

theorem rel_recType {e : EEnv} {s : ESt} {v : Spec.View} (h : Rel e s v) (n : Nat) : recType s n = Spec.kindOf e v n := by
  unfold recType Spec.kindOf
  rw [← h.editing]
  by_cases hed : s.edit = true
  · rw [if_pos hed, if_neg (by rw [hed]; decide)]
    show (match lookup s.chs n with | some c => c.kind | none => .notChanged) = _
    by_cases hn : n < e.phys
    · rw [if_pos hn, h.del]
      cases hl : lookup s.chs n with
      | none => simp
      | some c =>
        obtain ⟨h1, h2⟩ := lookup_some hl
        rw [if_pos (by simp [hn])]
        exact ((h.good c h1).1 (by omega)).1
    · rw [if_neg hn, rel_new_isSome h (by omega)]
      cases hl : lookup s.chs n with
      | none => simp
      | some c =>
        obtain ⟨h1, h2⟩ := lookup_some hl
        rw [if_pos (by rfl)]
        exact ((h.good c h1).2 (by omega)).1
  · rw [if_neg hed, if_pos (by simpa using hed)]

theorem rel_editRecord {e : EEnv} {s : ESt} {v : Spec.View} (h : Rel e s v) (n : Nat) :
    editRecord e s n = match v.new n with | some b => .ok b | none => getRecord e.tab n := by
  unfold editRecord
  have hfl : findCh s n = lookup s.chs n := rfl
  rw [hfl]
  rw [h.new]
  by_cases hn : n < e.phys
  · rw [if_pos hn]
    cases hl : lookup s.chs n with
    | none => rfl
    | some c =>
      obtain ⟨h1, h2⟩ := lookup_some hl
      have := ((h.good c h1).1 (by omega)).1
      dsimp only
      rw [if_neg (by rw [this]; exact fun hh => hh rfl)]
  · rw [if_neg hn]
    cases hl : lookup s.chs n with
    | none => rfl
    | some c =>
      obtain ⟨h1, h2⟩ := lookup_some hl
      obtain ⟨h3, marks, rec, h4, _⟩ := (h.good c h1).2 (by omega)
      simp only [Option.bind, recOf, h4, h3]
      rw [if_pos (by decide)]

/-! ## Properties -/

/-- C37. Every editing session: after any sequence of operations the record marks and the
contents of every record are those the specification gives, unless an operation listed in
`Spec.Broken` was performed, and then the behaviour is undefined. Exceptions never change
anything and never end the session. -/
theorem edit_session_partial (e : EEnv) (ho : Spec.Open e) (ops : List EOp) (hops : ∀ op ∈ ops, Spec.OpFits e op) :
    (∃ s, erun e ops ⟨false, [], 0⟩ = .ok s ∧
      (∀ n, recType s n = Spec.kindOf e (ops.foldl (Spec.eff e) .idle) n) ∧
      (∀ n, editRecord e s n = match (ops.foldl (Spec.eff e) .idle).new n with | some b => .ok b | none => getRecord e.tab n) ∧
      s.added = (ops.foldl (Spec.eff e) .idle).added ∧
      ∀ pre op post, ops = pre ++ op :: post → ¬ Spec.Broken e (pre.foldl (Spec.eff e) .idle) op) ∨
    (erun e ops ⟨false, [], 0⟩ = .ub ∧
      ∃ pre op post, ops = pre ++ op :: post ∧ Spec.Broken e (pre.foldl (Spec.eff e) .idle) op) := by
  rcases run_refines e ho ops hops _ _ (idle_rel e) with ⟨s, h1, h2, h3⟩ | h
  · exact .inl ⟨s, h1, rel_recType h2, rel_editRecord h2, h2.added, h3⟩
  · exact .inr h

/-- C37. Cancelling after any session gives back exactly the stored table: no record is
marked, and every record reads as stored. -/
theorem cancel_restores (e : EEnv) (ho : Spec.Open e) (ops : List EOp) (hops : ∀ op ∈ ops, Spec.OpFits e op)
    (s : ESt) (hs : erun e ops ⟨false, [], 0⟩ = .ok s) :
    ∃ s', estep e s .cancel = .ok s' ∧ s'.added = 0 ∧ (∀ n, recType s' n = .notChanged) ∧ (∀ n, editRecord e s' n = getRecord e.tab n) := by
  rcases run_refines e ho ops hops _ _ (idle_rel e) with ⟨s1, h1, h2, _⟩ | ⟨h, _⟩
  · rw [hs] at h1
    cases h1
    refine ⟨⟨false, [], 0⟩, ?_, rfl, fun n => rfl, fun n => rfl⟩
    simp only [estep, cancelEdit, destroyAll_ok e _ h2.good]
    rfl
  · rw [hs] at h; cases h

/-- C37. A field of a record is reported like the record: no record is ever in the state
"changed", and asking never fails. -/
theorem field_marks (e : EEnv) (ho : Spec.Open e) (ops : List EOp) (hops : ∀ op ∈ ops, Spec.OpFits e op)
    (s : ESt) (hs : erun e ops ⟨false, [], 0⟩ = .ok s) (n fi : Nat) :
    fieldType s n fi = .ok (recType s n) ∧ recType s n ≠ .changed := by
  rcases run_refines e ho ops hops _ _ (idle_rel e) with ⟨s1, h1, h2, _⟩ | ⟨h, _⟩
  · rw [hs] at h1
    cases h1
    have hk : recType s n ≠ .changed := by
      rw [rel_recType h2]
      unfold Spec.kindOf
      repeat' split
      all_goals exact fun hh => by cases hh
    refine ⟨?_, hk⟩
    unfold fieldType
    unfold recType at hk ⊢
    by_cases hed : s.edit = true
    · rw [if_pos hed] at hk ⊢
      rw [if_pos hed]
      cases hl : findCh s n with
      | none => rfl
      | some c =>
        rw [hl] at hk
        exact if_neg hk
    · rw [if_neg hed, if_neg hed]
  · rw [hs] at h; cases h

/-- C37. Without `begin_edit`, storing values has no effect. -/
theorem put_needs_begin (e : EEnv) (s : ESt) (hs : s.edit = false) (n fi : Nat) (nul : Bool) (enc : Bytes) :
    estep e s (.put n fi nul enc) = .ok s := by
  simp only [estep, setEdit, hs]; rfl

/-- C37. A read-only base cannot be edited. -/
theorem begin_refused (e : EEnv) (h : e.readonly = true) (s : ESt) (hs : s.edit = false) : estep e s .begin = .throw := by
  simp only [estep, beginEdit, hs, h]; rfl

/-- The full C37 would let a user change a stored record; in the code this is undefined
for every stored record and every new value. -/
theorem edit_existing_ub (e : EEnv) (ho : Spec.Open e) (s : ESt) (hs : s.edit = true) (n fi : Nat) (nul : Bool) (enc : Bytes) (f : EField)
    (hf : e.fields[fi]? = some f) (hv : f.isVersion = false) (hn : ¬ (nul = true ∧ f.slot.nullable = false)) (hp : n < e.phys)
    (hne : Spec.raw (Spec.record e.tab n) f.slot ≠ enc) : estep e s (.put n fi nul enc) = .ub := by
  have hw := ho.1
  simp only [estep]
  unfold setEdit
  rw [hs, hf]
  dsimp only
  rw [if_neg (by decide), if_neg (by rw [hv]; decide), if_neg (by
    intro hh
    rw [Bool.and_eq_true, Bool.not_eq_true'] at hh
    exact hn hh), if_pos hp, getRecord_ok hw hp, Outcome.ok_bind,
    load_ok (by rw [record_length hw hp]; exact ho.2 f (List.mem_of_getElem? hf)), Outcome.ok_bind]
  exact if_neg (fun hh => hne hh.1)

/-! ### Row numbers (C59) -/

/-- C59. While editing, row `r` (from 1) is the record at position `r` of the current
order, and after the last of them the added records follow. -/
theorem row_numbers (e : EEnv) (s : ESt) (hs : s.edit = true) (ix : List Nat) (hix : ix.length + s.added < 2 ^ 32)
    (hp : e.phys + s.added < 2 ^ 32) (r : Nat) :
    physOfRow e s ix ix.length r =
      if r = 0 ∨ ix.length + s.added < r then .throw
      else if h : r - 1 < ix.length then .ok ix[r - 1]
      else .ok (e.phys + (r - 1 - ix.length)) := by
  unfold physOfRow
  rw [hs, Nat.mod_eq_of_lt hix]
  by_cases h0 : r = 0
  · rw [if_pos h0, if_pos (.inl h0)]
  · rw [if_neg h0]
    by_cases h1 : ix.length + s.added < r
    · rw [if_pos (by simpa using h1), if_pos (.inr h1)]
    · rw [if_neg (by simpa using h1), if_neg (by omega : ¬ (r = 0 ∨ ix.length + s.added < r))]
      by_cases h2 : r > ix.length
      · rw [if_pos (by simpa using h2), dif_neg (by omega), Nat.mod_eq_of_lt (by omega)]
        congr 1; omega
      · have h3 : r - 1 < ix.length := by omega
        rw [if_neg (by simpa using h2), if_neg h2, dif_pos h3, List.getElem?_eq_getElem h3]

/-- C59. Different rows are different records. -/
theorem rows_distinct (e : EEnv) (s : ESt) (hs : s.edit = true) (ix : List Nat) (hix : ix.length + s.added < 2 ^ 32)
    (hp : e.phys + s.added < 2 ^ 32) (hn : ix.Nodup) (hl : ∀ i ∈ ix, i < e.phys) (r r' m : Nat)
    (h : physOfRow e s ix ix.length r = .ok m) (h' : physOfRow e s ix ix.length r' = .ok m) : r = r' := by
  rw [row_numbers e s hs ix hix hp] at h h'
  split at h
  · cases h
  · split at h'
    · cases h'
    · split at h
      · split at h'
        · cases h
          rename_i _ _ g g'
          have := Outcome.ok.inj h'
          have := (List.Nodup.getElem_inj_iff hn).mp this
          omega
        · rename_i g _
          have := hl _ (List.getElem_mem g)
          have e1 := Outcome.ok.inj h
          have e2 := Outcome.ok.inj h'
          omega
      · split at h'
        · rename_i g
          have := hl _ (List.getElem_mem g)
          have e1 := Outcome.ok.inj h
          have e2 := Outcome.ok.inj h'
          omega
        · have e1 := Outcome.ok.inj h
          have e2 := Outcome.ok.inj h'
          omega

/-! ### Instances -/

/-- Three records of three bytes: a removal byte, then a value of two bytes. -/
def exTab : EEnv := ⟨⟨[0, 1, 2, 0, 3, 4, 0, 5, 6], 3⟩, 3, [⟨⟨1, false, 2⟩, false⟩], false⟩

theorem exTab_open : Spec.Open exTab := by
  refine ⟨⟨by decide, rfl, by decide⟩, ?_⟩
  intro f hf
  simp only [exTab, List.mem_singleton] at hf
  subst hf
  decide

/-- Mark record 1 deleted, add records 3 and 4, fill them, delete record 3. -/
def exOps : List EOp :=
  [.begin, .mark 1 .deleted, .mark 3 .inserted, .mark 4 .inserted, .put 3 0 false [7, 8], .put 4 0 false [9, 10], .mark 3 .deleted]

example : ∀ op ∈ exOps, Spec.OpFits exTab op := by
  intro op hop
  simp only [exOps, List.mem_cons, List.not_mem_nil, or_false] at hop
  rcases hop with rfl | rfl | rfl | rfl | rfl | rfl | rfl <;> first | trivial | (intro f hf; cases hf; rfl)

example : erun exTab exOps ⟨false, [], 0⟩ =
    .ok ⟨true, [⟨3, .inserted, .live [true] [0, 9, 10]⟩, ⟨1, .deleted, .null⟩], 1⟩ := by decide +kernel

example : (exOps.foldl (Spec.eff exTab) .idle).new 3 = some [0, 9, 10] := by decide +kernel

/-- Setting a stored record's value to what it already holds is harmless; anything else is not. -/
example : estep exTab ⟨true, [], 0⟩ (.put 1 0 false [3, 4]) = .ok ⟨true, [], 0⟩ ∧
    estep exTab ⟨true, [], 0⟩ (.put 1 0 false [3, 5]) = .ub := by decide +kernel

/-- C37, a disagreement: a value stored in a record past the end creates that record without
counting it; deleting it then makes the count of added records wrap to 2³²-1. -/
theorem uncounted_record_wraps :
    erun exTab [.begin, .put 4 0 false [1, 1], .mark 4 .deleted] ⟨false, [], 0⟩ = .ok ⟨true, [], 4294967295⟩ := by decide +kernel

/-- C37, a disagreement: the first record after the stored ones cannot be filled unless it was
marked as inserted before. -/
theorem first_new_without_mark_ub : erun exTab [.begin, .put 3 0 false [1, 1]] ⟨false, [], 0⟩ = .ub := by decide +kernel

example : physOfRow exTab ⟨true, [], 2⟩ [0, 2] 2 4 = .ok 4 := by decide +kernel

end Verif.Record
