import Verif.TableOpen.Lemmas

/-! # Lemmas: the parts of a description -/

namespace Verif.TableOpen
open Verif Record Tree
open Spec (Number IsStr IsNum IsBit FieldNode IndexFieldNode IndexNode TableNode Same WholeTail FirstNamed codes)

theorem bind_inv {α β : Type} {x : Outcome α} {f : α → Outcome β} {b : β} (h : (x >>= f) = .ok b) :
    ∃ a, x = .ok a ∧ f a = .ok b := by
  cases x with
  | ok a => exact ⟨a, rfl, h⟩
  | throw => cases h
  | ub => cases h

theorem bind_ne_ub {α β : Type} {x : Outcome α} {f : α → Outcome β} (h1 : x ≠ .ub) (h2 : ∀ a, x = .ok a → f a ≠ .ub) :
    (x >>= f) ≠ .ub := by
  cases x with
  | ok a => exact h2 a rfl
  | throw => simp
  | ub => exact absurd rfl h1

/-! ## Words and bits -/

theorem want_cons (t : NType) (n : Node) (ns : List Node) : want t (n :: ns) = if n.type = t then .ok (n.value, ns) else .throw := rfl

theorem want_ok {t : NType} {n : Node} {ns : List Node} {r} (h : want t (n :: ns) = .ok r) : n.type = t ∧ r = (n.value, ns) := by
  rw [want_cons] at h
  split at h
  · rename_i e; simp only [Outcome.ok.injEq] at h; exact ⟨e, h.symm⟩
  · cases h

theorem oneOf_ne_ub (a b v : Str) : oneOf a b v ≠ .ub := by
  unfold oneOf; split
  · simp
  · split <;> simp

theorem oneOf_bit {v : Str} {b : Bool} (h : oneOf ['1'] ['0'] v = .ok b) : v = (if b then ['1'] else ['0']) := by
  unfold oneOf at h
  split at h
  · rename_i e; simp only [Outcome.ok.injEq] at h; rw [← h]; exact e
  · split at h
    · rename_i e; simp only [Outcome.ok.injEq] at h; rw [← h]; exact e
    · cases h

theorem oneOf_case {v : Str} {b : Bool} (h : oneOf ['C', 'S'] ['C', 'I'] v = .ok b) : v = (if b then ['C', 'S'] else ['C', 'I']) := by
  unfold oneOf at h
  split at h
  · rename_i e; simp only [Outcome.ok.injEq] at h; rw [← h]; exact e
  · split at h
    · rename_i e; simp only [Outcome.ok.injEq] at h; rw [← h]; exact e
    · cases h

theorem bit_ok (b : Bool) : oneOf ['1'] ['0'] (if b then ['1'] else ['0']) = .ok b := by cases b <;> rfl
theorem case_ok (b : Bool) : oneOf ['C', 'S'] ['C', 'I'] (if b then ['C', 'S'] else ['C', 'I']) = .ok b := by cases b <;> rfl

theorem typeName_of {s : Str} {t : FType} (h : typeOf s = some t) : Record.Spec.typeName t = some s := by
  unfold typeOf at h
  repeat' (split at h)
  all_goals first
    | (cases h; done)
    | (rename_i e; simp only [Option.some.injEq] at h; subst h; subst e; rfl)

theorem word_ok {s : Str} {n : Node} : word s n = .ok () ↔ IsStr n s := by
  unfold word IsStr
  by_cases h1 : n.type = .string
  · by_cases h2 : n.value = s <;> simp [h1, h2]
  · simp [h1]

theorem word_ne_ub (s : Str) (n : Node) : word s n ≠ .ub := by
  unfold word; split
  · simp
  · split <;> simp

/-! ## Fields -/

theorem fieldFromTree_node {n : Node} {f : Str × Decl} (h : FieldNode n f) (hv : Bool) :
    fieldFromTree n.kids hv = .ok (⟨utf8Of f.1, f.2, 0⟩, hv || decide (f.2.type = .version)) := by
  obtain ⟨a, b, c, d, e, g, ty, hk, ha, ht, hb, hc, hd, he, hg⟩ := h
  rw [hk]
  simp only [fieldFromTree, parseDecl, want_cons, ha.1, hb.1, hc.1, hd.1, he.1, hg.1, if_true, Outcome.ok_bind,
    ha.2, hb.2, hc.2, hg.2, typeOf_name ht, bit_ok, case_ok, (stoi_iff _ _).mpr hd.2, (stoi_iff _ _).mpr he.2]

theorem six {l : List Node} (h : l.length = 6) : ∃ a b c d e g, l = [a, b, c, d, e, g] := by
  match l, h with
  | [a, b, c, d, e, g], _ => exact ⟨a, b, c, d, e, g, rfl⟩

theorem fieldFromTree_inv {n : Node} {hv : Bool} {r} (hk : n.kids.length = 6) (h : fieldFromTree n.kids hv = .ok r) :
    ∃ f, FieldNode n f := by
  obtain ⟨a, b, c, d, e, g, hk⟩ := six hk
  rw [hk] at h
  unfold fieldFromTree parseDecl at h
  obtain ⟨⟨nm, l1⟩, h1, h⟩ := bind_inv h
  obtain ⟨a1, a2⟩ := want_ok h1
  simp only [Prod.mk.injEq] at a2
  obtain ⟨rfl, rfl⟩ := a2
  dsimp only at h
  obtain ⟨D, hD, h⟩ := bind_inv h
  obtain ⟨⟨ty, l2⟩, h1, hD⟩ := bind_inv hD
  obtain ⟨b1, b2⟩ := want_ok h1
  simp only [Prod.mk.injEq] at b2
  obtain ⟨rfl, rfl⟩ := b2
  dsimp only at hD
  cases ht : typeOf b.value with
  | none => rw [ht] at hD; cases hD
  | some t =>
    rw [ht] at hD
    dsimp only at hD
    obtain ⟨⟨x, l3⟩, h1, hD⟩ := bind_inv hD
    obtain ⟨c1, c2⟩ := want_ok h1
    simp only [Prod.mk.injEq] at c2
    obtain ⟨rfl, rfl⟩ := c2
    dsimp only at hD
    obtain ⟨nul, c3, hD⟩ := bind_inv hD
    obtain ⟨⟨x, l3⟩, h1, hD⟩ := bind_inv hD
    obtain ⟨d1, d2⟩ := want_ok h1
    simp only [Prod.mk.injEq] at d2
    obtain ⟨rfl, rfl⟩ := d2
    dsimp only at hD
    obtain ⟨len, d3, hD⟩ := bind_inv hD
    obtain ⟨⟨x, l3⟩, h1, hD⟩ := bind_inv hD
    obtain ⟨e1, e2⟩ := want_ok h1
    simp only [Prod.mk.injEq] at e2
    obtain ⟨rfl, rfl⟩ := e2
    dsimp only at hD
    obtain ⟨prec, e3, hD⟩ := bind_inv hD
    obtain ⟨⟨x, l3⟩, h1, hD⟩ := bind_inv hD
    obtain ⟨g1, g2⟩ := want_ok h1
    simp only [Prod.mk.injEq] at g2
    obtain ⟨rfl, rfl⟩ := g2
    dsimp only at hD
    obtain ⟨cs, g3, hD⟩ := bind_inv hD
    exact ⟨(a.value, ⟨t, nul, len, prec, cs⟩), a, b, c, d, e, g, b.value, hk, ⟨a1, rfl⟩, typeName_of ht, ⟨b1, rfl⟩,
      ⟨c1, oneOf_bit c3⟩, ⟨d1, (stoi_iff _ _).mp d3⟩, ⟨e1, (stoi_iff _ _).mp e3⟩, ⟨g1, oneOf_case g3⟩⟩

theorem want_ne_ub {t : NType} {n : Node} {ns : List Node} : want t (n :: ns) ≠ .ub := by
  rw [want_cons]; split <;> simp

theorem fieldFromTree_ne_ub {n : Node} {hv : Bool} (hk : n.kids.length = 6) : fieldFromTree n.kids hv ≠ .ub := by
  obtain ⟨a, b, c, d, e, g, hk⟩ := six hk
  rw [hk]
  unfold fieldFromTree parseDecl
  refine bind_ne_ub want_ne_ub fun r hr => ?_
  obtain ⟨_, rfl⟩ := want_ok hr
  dsimp only
  refine bind_ne_ub ?_ fun _ _ => by simp
  refine bind_ne_ub want_ne_ub fun r hr => ?_
  obtain ⟨_, rfl⟩ := want_ok hr
  dsimp only
  split
  · simp
  · refine bind_ne_ub want_ne_ub fun r hr => ?_
    obtain ⟨_, rfl⟩ := want_ok hr
    dsimp only
    refine bind_ne_ub (oneOf_ne_ub _ _ _) fun _ _ => ?_
    refine bind_ne_ub want_ne_ub fun r hr => ?_
    obtain ⟨_, rfl⟩ := want_ok hr
    dsimp only
    refine bind_ne_ub (stoi_ne_ub _) fun _ _ => ?_
    refine bind_ne_ub want_ne_ub fun r hr => ?_
    obtain ⟨_, rfl⟩ := want_ok hr
    dsimp only
    refine bind_ne_ub (stoi_ne_ub _) fun _ _ => ?_
    refine bind_ne_ub want_ne_ub fun r hr => ?_
    obtain ⟨_, rfl⟩ := want_ok hr
    dsimp only
    exact bind_ne_ub (oneOf_ne_ub _ _ _) fun _ _ => by simp

theorem fields_ne_ub : ∀ (ns : List Node) (hv : Bool), fields ns hv ≠ .ub
  | [], _ => by simp [fields]
  | n :: ns, hv => by
    unfold fields
    split
    · simp
    · rename_i hk
      refine bind_ne_ub ?_ fun r hr => ?_
      · unfold field
        refine bind_ne_ub (fieldFromTree_ne_ub (by omega)) fun r hr => ?_
        exact bind_ne_ub (canBeGuid_ne_ub _) fun _ _ => by simp
      · exact bind_ne_ub (fields_ne_ub ns _) fun _ _ => by simp

theorem fields_inv : ∀ (ns : List Node) (hv : Bool) {r}, fields ns hv = .ok r → ∃ ds, List.Forall₂ FieldNode ns ds
  | [], _, _, _ => ⟨[], .nil⟩
  | n :: ns, hv, r, h => by
    unfold fields at h
    split at h
    · cases h
    · rename_i hk
      obtain ⟨p, h1, h⟩ := bind_inv h
      unfold field at h1
      obtain ⟨q, h2, _⟩ := bind_inv h1
      obtain ⟨f, hf⟩ := fieldFromTree_inv (by omega) h2
      obtain ⟨x, h3, _⟩ := bind_inv h
      obtain ⟨ds, hd⟩ := fields_inv ns _ h3
      exact ⟨f :: ds, .cons hf hd⟩

open Classical in
/-- The field a declaration stands for, before offsets are given out. -/
noncomputable def infoOf (f : Str × Decl) : FieldInfo :=
  ⟨⟨utf8Of f.1, f.2, 0⟩, decide (f.2.type = .binary) && decide (Spec.RefName f.1) && decide (f.2.length = 16)⟩

open Classical in
theorem fields_eq {ns : List Node} {ds : List (Str × Decl)} (h : List.Forall₂ FieldNode ns ds) (hn : ∀ f ∈ ds, '\x00' ∉ f.1) :
    ∀ hv, fields ns hv = if ∀ f ∈ ds, WholeTail 3 f.1 ∧ WholeTail 2 f.1
      then .ok (ds.map infoOf, hv || ds.any (fun f => decide (f.2.type = .version))) else .throw := by
  induction h with
  | nil => intro hv; simp [fields]
  | @cons n f ns ds h1 _ ih =>
    intro hv
    have hk : n.kids.length = 6 := by
      obtain ⟨a, b, c, d, e, g, ty, hk, _⟩ := h1
      rw [hk]; rfl
    rw [fields, if_neg (by omega), field, fieldFromTree_node h1]
    simp only [Outcome.ok_bind]
    rw [canBeGuid_eq (hn f (List.mem_cons_self ..))]
    by_cases hw : WholeTail 3 f.1 ∧ WholeTail 2 f.1
    · rw [if_pos hw]
      simp only [Outcome.ok_bind]
      rw [ih (fun g hg => hn g (List.mem_cons_of_mem _ hg))]
      by_cases hr : ∀ g ∈ ds, WholeTail 3 g.1 ∧ WholeTail 2 g.1
      · rw [if_pos hr, if_pos (by
          intro g hg
          rcases List.mem_cons.mp hg with rfl | hg
          · exact hw
          · exact hr g hg)]
        simp [infoOf, Bool.or_assoc]
      · rw [if_neg hr, if_neg (fun x => hr (fun g hg => x g (List.mem_cons_of_mem _ hg)))]
        rfl
    · rw [if_neg hw, if_neg (fun x => hw (x f (List.mem_cons_self ..)))]
      rfl

theorem fieldPart_ne_ub (n : Node) : fieldPart n ≠ .ub := by
  unfold fieldPart
  split
  · simp
  · split
    · simp
    · split
      · rename_i h _ e; rw [e] at h; simp at h
      · exact bind_ne_ub (word_ne_ub _ _) fun _ _ => fields_ne_ub _ _

theorem fieldPart_inv {n : Node} {r} (h : fieldPart n = .ok r) :
    n.type = .list ∧ ∃ f fs ds, n.kids = f :: fs ∧ ds ≠ [] ∧ IsStr f "Fields".toList ∧ List.Forall₂ FieldNode fs ds ∧
      fields fs false = .ok r := by
  unfold fieldPart at h
  split at h
  · cases h
  · rename_i ht
    split at h
    · cases h
    · rename_i hl
      split at h
      · cases h
      · rename_i f fs e
        obtain ⟨_, h1, h⟩ := bind_inv h
        obtain ⟨ds, hd⟩ := fields_inv _ _ h
        refine ⟨by simpa using ht, f, fs, ds, e, ?_, word_ok.mp h1, hd, h⟩
        rintro rfl
        cases hd
        rw [e] at hl; simp at hl

theorem fieldPart_eq {n : Node} {f : Node} {fs : List Node} (ht : n.type = .list) (hk : n.kids = f :: fs) (hne : fs ≠ [])
    (hf : IsStr f "Fields".toList) : fieldPart n = fields fs false := by
  unfold fieldPart
  rw [if_neg (by simpa using ht), if_neg (by rw [hk]; have := List.length_pos_iff.mpr hne; simp; omega), hk]
  dsimp only
  rw [word_ok.mpr hf]
  rfl

end Verif.TableOpen
