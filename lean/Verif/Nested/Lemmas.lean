import Verif.Nested.Model
import Verif.Nested.Spec
import Verif.Container.CloseLemmas

/-! # Lemmas: trees and open containers -/

namespace Verif.Nested
open Verif Verif.Stream Verif.Container Verif.Container.Spec Verif.Nested.Spec Verif.Unicode Verif.Unicode.Spec

/-- The tree `t` is what the names and contents `c`, with the open inner containers, stand for. -/
def Rel (fuel : Nat) : Tree → Subs → Contents → Prop
  | .nil, .nil, [] => True
  | .file n b r, .none su, p :: ps => p = (n, b) ∧ Rel fuel r su ps
  | .dir n t r, .none su, p :: ps => p.1 = n ∧ (p.2 ≠ [] ∧ ∃ k s ls, openCatalog fuel p.2 = .ok (some (.container k)) ∧
      Inv plainCodec k s ls ∧ extent k.cat < LAST ∧ Rel fuel t (.blank ls.length) (ls.map Prod.snd)) ∧ Rel fuel r su ps
  | .dir n t r, .some k i su, p :: ps => p.1 = n ∧ (∃ s ls, Inv plainCodec k s ls ∧ extent k.cat < LAST ∧
      (k.fatMod = false → k.cat.emptyMod = false ∧ k.cat.modified = false ∧ p.2 = k.cat.data.data) ∧
      Rel fuel t i (ls.map Prod.snd)) ∧ Rel fuel r su ps
  | _, _, _ => False

/-- The bytes of a container for the tree. -/
def Closed (fuel : Nat) (t : Tree) (b : Bytes) : Prop :=
  b ≠ [] ∧ ∃ k s ls, openCatalog fuel b = .ok (some (.container k)) ∧
      Inv plainCodec k s ls ∧ extent k.cat < LAST ∧ Rel fuel t (.blank ls.length) (ls.map Prod.snd)

/-- An open container for the tree, in an entry whose content was `b`. -/
def Opened (fuel : Nat) (k : Catalog) (i : Subs) (t : Tree) (b : Bytes) : Prop :=
  ∃ s ls, Inv plainCodec k s ls ∧ extent k.cat < LAST ∧
      (k.fatMod = false → k.cat.emptyMod = false ∧ k.cat.modified = false ∧ b = k.cat.data.data) ∧
      Rel fuel t i (ls.map Prod.snd)

/-! ## The pointers -/

theorem grow_zero (su : Subs) : su.grow 0 = su := by
  induction su with
  | nil => rfl
  | none r ih => rw [Subs.grow, ih]
  | some k i r _ ih => rw [Subs.grow, ih]

theorem set_set (su : Subs) (j : Nat) (k k' : Catalog) (i i' : Subs) : (su.set j k i).set j k' i' = su.set j k' i' := by
  induction su generalizing j with
  | nil => cases j <;> rfl
  | none r ih =>
    cases j with
    | zero => rfl
    | succ j => simp only [Subs.set]; rw [ih]
  | some k0 i0 r _ ih =>
    cases j with
    | zero => rfl
    | succ j => simp only [Subs.set]; rw [ih]

/-! ## The tree -/

theorem rel_absent {fuel : Nat} {d : List Nat} : ∀ (t : Tree) (su : Subs) (c : Contents), Rel fuel t su c → (∀ p ∈ c, ¬ SameText p.1 d) →
    noDir d t ∧ noFile d t ∧ sub d t = .nil
  | .nil, su, c, _, _ => ⟨trivial, trivial, rfl⟩
  | .file n b r, su, c, h, hn => by
    cases su with
    | none su =>
      cases c with
      | nil => exact h.elim
      | cons p ps =>
        obtain ⟨hp, hr⟩ := h
        obtain ⟨h1, h2, h3⟩ := rel_absent r su ps hr (fun q hq => hn q (List.mem_cons_of_mem _ hq))
        have := hn p (List.mem_cons_self ..)
        rw [hp] at this
        exact ⟨h1, ⟨this, h2⟩, h3⟩
    | nil => cases c <;> exact h.elim
    | some k i su => cases c <;> exact h.elim
  | .dir n t r, su, c, h, hn => by
    have key : ∀ (su : Subs) (p : List Nat × Bytes) (ps : Contents), p.1 = n → Rel fuel r su ps → (∀ q ∈ p :: ps, ¬ SameText q.1 d) →
        noDir d (.dir n t r) ∧ noFile d (.dir n t r) ∧ sub d (.dir n t r) = .nil := by
      intro su p ps hp hr hn
      obtain ⟨h1, h2, h3⟩ := rel_absent r su ps hr (fun q hq => hn q (List.mem_cons_of_mem _ hq))
      have := hn p (List.mem_cons_self ..)
      rw [hp] at this
      exact ⟨⟨this, h1⟩, h2, by rw [sub, if_neg this]; exact h3⟩
    cases su with
    | none su =>
      cases c with
      | nil => exact h.elim
      | cons p ps =>
        obtain ⟨hp, _, hr⟩ := h
        exact key su p ps hp hr hn
    | nil => cases c <;> exact h.elim
    | some k i su =>
      cases c with
      | nil => exact h.elim
      | cons p ps =>
        obtain ⟨hp, _, hr⟩ := h
        exact key su p ps hp hr hn

/-- A tree under a name that is there. -/
theorem rel_present {fuel : Nat} {d m : List Nat} {b : Bytes} {c2 : Contents} (hm : SameText m d) :
    ∀ (t : Tree) (su : Subs) (c1 : Contents), Rel fuel t su (c1 ++ (m, b) :: c2) → (∀ q ∈ c1, ¬ SameText q.1 d) → noFile d t →
    ((su.get c1.length = none ∧ Closed fuel (sub d t) b) ∨ ∃ k i, su.get c1.length = some (k, i) ∧ Opened fuel k i (sub d t) b) ∧
    (∀ k i t' b', Opened fuel k i t' b' → Rel fuel (putDir d t' t) (su.set c1.length k i) (c1 ++ (m, b') :: c2))
  | .nil, su, c1, h, _, _ => by cases su <;> cases c1 <;> exact h.elim
  | .file n b0 r, su, c1, h, hc, hf => by
    cases su with
    | none su =>
      cases c1 with
      | nil =>
        obtain ⟨hp, _⟩ := h
        rw [Prod.ext_iff] at hp
        simp only at hp
        exact absurd (hp.1 ▸ hm) hf.1
      | cons p ps =>
        obtain ⟨hp, hr⟩ := h
        obtain ⟨h1, h2⟩ := rel_present hm r su ps hr (fun q hq => hc q (List.mem_cons_of_mem _ hq)) hf.2
        exact ⟨h1, fun k i t' b' ho => ⟨hp, h2 k i t' b' ho⟩⟩
    | nil => cases c1 <;> exact h.elim
    | some k i su => cases c1 <;> exact h.elim
  | .dir n t r, su, c1, h, hc, hf => by
    cases su with
    | nil => cases c1 <;> exact h.elim
    | none su =>
      cases c1 with
      | nil =>
        obtain ⟨hp, ho, hr⟩ := h
        simp only at hp ho
        subst hp
        refine ⟨Or.inl ⟨rfl, ?_⟩, fun k i t' b' hop => ?_⟩
        · rw [sub, if_pos hm]; exact ho
        · rw [putDir, if_pos hm]
          exact ⟨rfl, hop, hr⟩
      | cons p ps =>
        obtain ⟨hp, ho, hr⟩ := h
        have hne := hc p (List.mem_cons_self ..)
        rw [hp] at hne
        obtain ⟨h1, h2⟩ := rel_present hm r su ps hr (fun q hq => hc q (List.mem_cons_of_mem _ hq)) hf
        rw [sub, if_neg hne]
        refine ⟨h1, fun k i t' b' hop => ?_⟩
        rw [putDir, if_neg hne]
        exact ⟨hp, ho, h2 k i t' b' hop⟩
    | some k0 i0 su =>
      cases c1 with
      | nil =>
        obtain ⟨hp, ho, hr⟩ := h
        simp only at hp ho
        subst hp
        refine ⟨Or.inr ⟨k0, i0, rfl, ?_⟩, fun k i t' b' hop => ?_⟩
        · rw [sub, if_pos hm]; exact ho
        · rw [putDir, if_pos hm]
          exact ⟨rfl, hop, hr⟩
      | cons p ps =>
        obtain ⟨hp, ho, hr⟩ := h
        have hne := hc p (List.mem_cons_self ..)
        rw [hp] at hne
        obtain ⟨h1, h2⟩ := rel_present hm r su ps hr (fun q hq => hc q (List.mem_cons_of_mem _ hq)) hf
        rw [sub, if_neg hne]
        refine ⟨h1, fun k i t' b' hop => ?_⟩
        rw [putDir, if_neg hne]
        exact ⟨hp, ho, h2 k i t' b' hop⟩

/-- A tree under a new name. -/
theorem rel_new {fuel : Nat} {d : List Nat} {b : Bytes} {k : Catalog} {i : Subs} {t' : Tree} (ho : Opened fuel k i t' b) :
    ∀ (t : Tree) (su : Subs) (c : Contents), Rel fuel t su c → (∀ q ∈ c, ¬ SameText q.1 d) →
    (su.grow 1).get c.length = none ∧ Rel fuel (putDir d t' t) ((su.grow 1).set c.length k i) (c ++ [(d, b)])
  | .nil, su, c, h, _ => by
    cases su with
    | nil =>
      cases c with
      | nil => exact ⟨rfl, rfl, ho, trivial⟩
      | cons => exact h.elim
    | none => cases c <;> exact h.elim
    | some => cases c <;> exact h.elim
  | .file n b0 r, su, c, h, hc => by
    cases su with
    | none su =>
      cases c with
      | nil => exact h.elim
      | cons p ps =>
        obtain ⟨hp, hr⟩ := h
        obtain ⟨h1, h2⟩ := rel_new ho r su ps hr (fun q hq => hc q (List.mem_cons_of_mem _ hq))
        exact ⟨h1, hp, h2⟩
    | nil => cases c <;> exact h.elim
    | some k i su => cases c <;> exact h.elim
  | .dir n t r, su, c, h, hc => by
    cases su with
    | nil => cases c <;> exact h.elim
    | none su =>
      cases c with
      | nil => exact h.elim
      | cons p ps =>
        obtain ⟨hp, h0, hr⟩ := h
        have hne := hc p (List.mem_cons_self ..)
        rw [hp] at hne
        obtain ⟨h1, h2⟩ := rel_new ho r su ps hr (fun q hq => hc q (List.mem_cons_of_mem _ hq))
        rw [putDir, if_neg hne]
        exact ⟨h1, hp, h0, h2⟩
    | some k0 i0 su =>
      cases c with
      | nil => exact h.elim
      | cons p ps =>
        obtain ⟨hp, h0, hr⟩ := h
        have hne := hc p (List.mem_cons_self ..)
        rw [hp] at hne
        obtain ⟨h1, h2⟩ := rel_new ho r su ps hr (fun q hq => hc q (List.mem_cons_of_mem _ hq))
        rw [putDir, if_neg hne]
        exact ⟨h1, hp, h0, h2⟩

/-- A content is stored under a name that is not a tree's. -/
theorem rel_put {fuel : Nat} {n : List Nat} {b : Bytes} :
    ∀ (t : Tree) (su : Subs) (c : Contents), Rel fuel t su c → noDir n t →
    Rel fuel (putFile n b t) (su.grow ((store n b c).length - c.length)) (store n b c)
  | .nil, su, c, h, _ => by
    cases su with
    | nil =>
      cases c with
      | nil => exact ⟨rfl, trivial⟩
      | cons => exact h.elim
    | none => cases c <;> exact h.elim
    | some => cases c <;> exact h.elim
  | .file m b0 r, su, c, h, hd => by
    cases su with
    | none su =>
      cases c with
      | nil => exact h.elim
      | cons p ps =>
        obtain ⟨hp, hr⟩ := h
        subst hp
        by_cases hs : SameText m n
        · rw [putFile, if_pos hs, store, if_pos hs]
          simp only [List.length_cons, Nat.sub_self]
          rw [grow_zero]
          exact ⟨rfl, hr⟩
        · rw [putFile, if_neg hs, store, if_neg hs]
          have := rel_put (b := b) r su ps hr hd
          simp only [List.length_cons, Nat.add_sub_add_right]
          exact ⟨rfl, this⟩
    | nil => cases c <;> exact h.elim
    | some k i su => cases c <;> exact h.elim
  | .dir m t r, su, c, h, hd => by
    cases su with
    | nil => cases c <;> exact h.elim
    | none su =>
      cases c with
      | nil => exact h.elim
      | cons p ps =>
        obtain ⟨hp, h0, hr⟩ := h
        have hs : ¬ SameText p.1 n := by rw [hp]; exact hd.1
        rw [putFile, store, if_neg hs]
        have := rel_put (b := b) r su ps hr hd.2
        simp only [List.length_cons, Nat.add_sub_add_right]
        exact ⟨hp, h0, this⟩
    | some k0 i0 su =>
      cases c with
      | nil => exact h.elim
      | cons p ps =>
        obtain ⟨hp, h0, hr⟩ := h
        have hs : ¬ SameText p.1 n := by rw [hp]; exact hd.1
        rw [putFile, store, if_neg hs]
        have := rel_put (b := b) r su ps hr hd.2
        simp only [List.length_cons, Nat.add_sub_add_right]
        exact ⟨hp, h0, this⟩

/-- A content is looked up. -/
theorem rel_lookup {fuel : Nat} {n : List Nat} :
    ∀ (t : Tree) (su : Subs) (c : Contents), Rel fuel t su c → noDir n t → lookup c n = getFile n t
  | .nil, su, c, h, _ => by
    cases su with
    | nil =>
      cases c with
      | nil => rfl
      | cons => exact h.elim
    | none => cases c <;> exact h.elim
    | some => cases c <;> exact h.elim
  | .file m b0 r, su, c, h, hd => by
    cases su with
    | none su =>
      cases c with
      | nil => exact h.elim
      | cons p ps =>
        obtain ⟨hp, hr⟩ := h
        subst hp
        have := rel_lookup r su ps hr hd
        unfold lookup at this ⊢
        rw [Spec.getFile, List.find?_cons]
        by_cases hs : SameText m n
        · simp [hs]
        · simp only [hs, decide_false, if_false]
          exact this
    | nil => cases c <;> exact h.elim
    | some k i su => cases c <;> exact h.elim
  | .dir m t r, su, c, h, hd => by
    have key : ∀ (su : Subs) (p : List Nat × Bytes) (ps : Contents), p.1 = m → Rel fuel r su ps → lookup (p :: ps) n = getFile n (.dir m t r) := by
      intro su p ps hp hr
      have hs : ¬ SameText p.1 n := by rw [hp]; exact hd.1
      have := rel_lookup r su ps hr hd.2
      unfold lookup at this ⊢
      rw [Spec.getFile, List.find?_cons]
      simp only [hs, decide_false]
      exact this
    cases su with
    | nil => cases c <;> exact h.elim
    | none su =>
      cases c with
      | nil => exact h.elim
      | cons p ps => exact key su p ps h.1 h.2.2
    | some k0 i0 su =>
      cases c with
      | nil => exact h.elim
      | cons p ps => exact key su p ps h.1 h.2.2

theorem rel_blank {fuel : Nat} : ∀ (t : Tree) (su : Subs) (c : Contents) (m : Nat), Rel fuel t su c → su = .blank m → m = c.length
  | .nil, su, c, m, h, hs => by
    subst hs
    cases m with
    | zero => cases c with
      | nil => rfl
      | cons => exact h.elim
    | succ m => cases c <;> exact h.elim
  | .file n b0 r, su, c, m, h, hs => by
    subst hs
    cases m with
    | zero => cases c <;> exact h.elim
    | succ m => cases c with
      | nil => exact h.elim
      | cons p ps => rw [List.length_cons, rel_blank r _ ps m h.2 rfl]
  | .dir n t r, su, c, m, h, hs => by
    subst hs
    cases m with
    | zero => cases c <;> exact h.elim
    | succ m => cases c with
      | nil => exact h.elim
      | cons p ps => rw [List.length_cons, rel_blank r _ ps m h.2.2 rfl]

end Verif.Nested
