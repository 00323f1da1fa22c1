import Verif.TableOpen.Parts

/-! # Lemmas: the indexes in a description -/

namespace Verif.TableOpen
open Verif Record Tree
open Spec (Number IsStr IsNum IsBit FieldNode IndexFieldNode IndexNode TableNode Same WholeTail FirstNamed codes)

/-! ## Looking fields up -/

theorem findName_ne_ub (name : Bytes) : ∀ (names : List Bytes) (j : Nat), findName name names.length names j ≠ .ub
  | [], _ => by simp [findName]
  | n :: ns, j => by
    rw [List.length_cons, findName]
    refine bind_ne_ub (equal_ne_ub _ _) fun b _ => ?_
    split
    · simp
    · exact findName_ne_ub name ns (j + 1)

theorem find_first {ds : List (Str × Decl)} {name : Str} (hn : '\x00' ∉ name) (hd : ∀ f ∈ ds, '\x00' ∉ f.1) :
    ∃ r, findName (utf8Of name) (ds.map (fun f => utf8Of f.1)).length (ds.map (fun f => utf8Of f.1)) 0 = .ok r ∧
      (∀ k, r = some k ↔ FirstNamed ds name k) ∧ (r = none ↔ ∀ f ∈ ds, ¬ Same f.1 name) := by
  obtain ⟨r, h1, h2, h3⟩ := findName_ok (codes name) (name_codes hn) [] (ds.map (fun f => codes f.1)) 0 (by
    intro x hx
    obtain ⟨f, hf, rfl⟩ := List.mem_map.mp hx
    exact name_codes (hd f hf))
  have e1 : ds.map (fun f => utf8Of f.1) = (ds.map (fun f => codes f.1)).map Unicode.Spec.utf8Text ++ [] := by
    rw [List.append_nil, List.map_map]
    apply List.map_congr_left
    intro f _
    rw [utf8Of_eq]; rfl
  refine ⟨r, ?_, ?_, ?_⟩
  · rw [List.length_map, utf8Of_eq, e1]
    rw [List.length_map] at h1
    exact h1
  · intro k
    rw [h2 k]
    simp only [Nat.zero_le, true_and, Nat.sub_zero, List.getElem?_map, Option.map_eq_some_iff]
    constructor
    · rintro ⟨x, ⟨f, hf, rfl⟩, hs, hall⟩
      exact ⟨⟨f, hf, hs⟩, fun i g hi hg => hall i _ hi ⟨g, hg, rfl⟩⟩
    · rintro ⟨⟨f, hf, hs⟩, hall⟩
      refine ⟨_, ⟨f, hf, rfl⟩, hs, ?_⟩
      rintro i y hi ⟨g, hg, rfl⟩
      exact hall i g hi hg
  · rw [h3]
    simp only [List.mem_map, forall_exists_index, and_imp, forall_apply_eq_imp_iff₂]
    rfl

/-! ## Index descriptions -/

theorem indexFields_ne_ub (names : List Bytes) : ∀ ns, indexFields names ns ≠ .ub
  | [] => by simp [indexFields]
  | n :: ns => by
    unfold indexFields
    split
    · split
      · simp
      · refine bind_ne_ub (findName_ne_ub _ _ _) fun r _ => ?_
        split
        · simp
        · split
          · simp
          · refine bind_ne_ub (stoi_ne_ub _) fun _ _ => ?_
            exact bind_ne_ub (indexFields_ne_ub names ns) fun _ _ => by simp
    · simp

theorem indexFields_inv (names : List Bytes) : ∀ (ns : List Node) {r}, indexFields names ns = .ok r →
    ∃ fs, List.Forall₂ IndexFieldNode ns fs
  | [], _, _ => ⟨[], .nil⟩
  | n :: ns, r, h => by
    unfold indexFields at h
    split at h
    · rename_i a b hk
      split at h
      · cases h
      · rename_i ha
        obtain ⟨o, _, h⟩ := bind_inv h
        split at h
        · cases h
        · split at h
          · cases h
          · rename_i hb
            obtain ⟨z, hz, h⟩ := bind_inv h
            obtain ⟨q, hq, _⟩ := bind_inv h
            obtain ⟨fs, hf⟩ := indexFields_inv names ns hq
            exact ⟨(a.value, z) :: fs, .cons ⟨a, b, hk, ⟨by simpa using ha, rfl⟩, ⟨by simpa using hb, (stoi_iff _ _).mp hz⟩⟩ hf⟩
    · cases h

theorem indexFields_eq {ds : List (Str × Decl)} (hd : ∀ f ∈ ds, '\x00' ∉ f.1) {ns : List Node} {fs : List (Str × Int)}
    (h : List.Forall₂ IndexFieldNode ns fs) (hn : ∀ f ∈ fs, '\x00' ∉ f.1) :
    ((∀ f ∈ fs, ∃ g ∈ ds, Same g.1 f.1) → ∃ r, indexFields (ds.map (fun f => utf8Of f.1)) ns = .ok r ∧
      List.Forall₂ (fun f g => FirstNamed ds f.1 g.1 ∧ g.2 = f.2) fs r) ∧
    ((¬ ∀ f ∈ fs, ∃ g ∈ ds, Same g.1 f.1) → indexFields (ds.map (fun f => utf8Of f.1)) ns = .throw) := by
  induction h with
  | nil => exact ⟨fun _ => ⟨[], rfl, .nil⟩, fun x => absurd (by simp) x⟩
  | @cons n f ns fs h1 _ ih =>
    obtain ⟨a, b, hk, ha, hb⟩ := h1
    have ih := ih (fun g hg => hn g (List.mem_cons_of_mem _ hg))
    obtain ⟨r, e1, e2, e3⟩ := find_first (hn f (List.mem_cons_self ..)) hd
    have hstep : indexFields (ds.map (fun f => utf8Of f.1)) (n :: ns) = (do
        match ← Outcome.ok r with
        | none => .throw
        | some j => do
          let r ← indexFields (ds.map (fun f => utf8Of f.1)) ns
          .ok ((j, f.2) :: r)) := by
      rw [indexFields, hk, ← e1]
      dsimp only
      rw [if_neg (by simpa using ha.1), ha.2]
      simp only [hb.1, ne_eq, not_true_eq_false, if_false, (stoi_iff _ _).mpr hb.2, Outcome.ok_bind]
      rw [e1]
      cases r <;> rfl
    rw [hstep]
    cases r with
    | none =>
      have hno := e3.mp rfl
      refine ⟨fun x => ?_, fun _ => rfl⟩
      obtain ⟨g, hg, hs⟩ := x f (List.mem_cons_self ..)
      exact absurd hs (hno g hg)
    | some j =>
      have hj := (e2 j).mp rfl
      have hex : ∃ g ∈ ds, Same g.1 f.1 := by
        obtain ⟨g, hg, hs⟩ := hj.1
        exact ⟨g, List.mem_of_getElem? hg, hs⟩
      constructor
      · intro x
        obtain ⟨r, h1, h2⟩ := ih.1 (fun g hg => x g (List.mem_cons_of_mem _ hg))
        refine ⟨(j, f.2) :: r, ?_, .cons ⟨hj, rfl⟩ h2⟩
        rw [h1]; rfl
      · intro x
        have : ¬ ∀ g ∈ fs, ∃ g' ∈ ds, Same g'.1 g.1 := by
          intro y
          apply x
          intro g hg
          rcases List.mem_cons.mp hg with rfl | hg
          · exact hex
          · exact y g hg
        rw [ih.2 this]; rfl

theorem indexFromTree_ne_ub (names : List Bytes) (n : Node) : indexFromTree names n ≠ .ub := by
  unfold indexFromTree
  split
  · split
    · simp
    · split
      · simp
      · split
        · simp
        · exact bind_ne_ub (oneOf_ne_ub _ _ _) fun _ _ => bind_ne_ub (indexFields_ne_ub _ _) fun _ _ => by simp
  · simp

theorem indexFromTree_inv {names : List Bytes} {n : Node} {r} (h : indexFromTree names n = .ok r) : ∃ i, IndexNode n i := by
  unfold indexFromTree at h
  split at h
  · rename_i a b x xs hk
    split at h
    · cases h
    · rename_i ht
      split at h
      · cases h
      · rename_i ha
        split at h
        · cases h
        · rename_i hb
          obtain ⟨p, hp, h⟩ := bind_inv h
          obtain ⟨q, hq, _⟩ := bind_inv h
          obtain ⟨fs, hf⟩ := indexFields_inv _ _ hq
          refine ⟨⟨a.value, p, fs⟩, by simpa using ht, ?_, a, b, x :: xs, hk, ⟨by simpa using ha, rfl⟩, ⟨by simpa using hb, oneOf_bit hp⟩, hf⟩
          cases hf; simp
  · cases h

/-- An index before its place in the index file is looked up. -/
def Read (ds : List (Str × Decl)) (i : Spec.IndexD) (x : Ix) : Prop :=
  x.name = utf8Of i.name ∧ x.primary = i.primary ∧
    List.Forall₂ (fun f g => FirstNamed ds f.1 g.1 ∧ g.2 = f.2) i.fields x.fields ∧ x.rootblock = 0 ∧ x.length = 0

theorem indexFromTree_eq {ds : List (Str × Decl)} (hd : ∀ f ∈ ds, '\x00' ∉ f.1) {n : Node} {i : Spec.IndexD}
    (h : IndexNode n i) (hn : ∀ f ∈ i.fields, '\x00' ∉ f.1) :
    ((∀ f ∈ i.fields, ∃ g ∈ ds, Same g.1 f.1) → ∃ x, indexFromTree (ds.map (fun f => utf8Of f.1)) n = .ok x ∧ Read ds i x) ∧
    ((¬ ∀ f ∈ i.fields, ∃ g ∈ ds, Same g.1 f.1) → indexFromTree (ds.map (fun f => utf8Of f.1)) n = .throw) := by
  obtain ⟨ht, hne, a, b, rs, hk, ha, hb, hf⟩ := h
  have hrs : ∃ r rs', rs = r :: rs' := by
    have := hf.length_eq
    have hp := List.length_pos_iff.mpr hne
    cases rs with
    | nil => simp at this; omega
    | cons r rs' => exact ⟨r, rs', rfl⟩
  obtain ⟨r, rs', rfl⟩ := hrs
  have hstep : indexFromTree (ds.map (fun f => utf8Of f.1)) n = (do
      let fs ← indexFields (ds.map (fun f => utf8Of f.1)) (r :: rs')
      .ok ⟨utf8Of i.name, i.primary, fs, 0, 0, 0⟩) := by
    unfold indexFromTree
    rw [hk]
    dsimp only
    rw [if_neg (by simpa using ht), if_neg (by simpa using ha.1), if_neg (by simpa using hb.1), ha.2, hb.2, bit_ok]
    rfl
  rw [hstep]
  obtain ⟨h1, h2⟩ := indexFields_eq hd hf hn
  constructor
  · intro x
    obtain ⟨q, e, hq⟩ := h1 x
    rw [e]
    exact ⟨_, rfl, rfl, rfl, hq, rfl, rfl⟩
  · intro x
    rw [h2 x]; rfl

theorem indexes_ne_ub (names : List Bytes) : ∀ ns, indexes names ns ≠ .ub
  | [] => by simp [indexes]
  | n :: ns => by
    unfold indexes
    exact bind_ne_ub (indexFromTree_ne_ub _ _) fun _ _ => bind_ne_ub (indexes_ne_ub names ns) fun _ _ => by simp

theorem indexes_inv (names : List Bytes) : ∀ (ns : List Node) {r}, indexes names ns = .ok r → ∃ is, List.Forall₂ IndexNode ns is
  | [], _, _ => ⟨[], .nil⟩
  | n :: ns, r, h => by
    unfold indexes at h
    obtain ⟨x, hx, h⟩ := bind_inv h
    obtain ⟨q, hq, _⟩ := bind_inv h
    obtain ⟨i, hi⟩ := indexFromTree_inv hx
    obtain ⟨is, his⟩ := indexes_inv names ns hq
    exact ⟨i :: is, .cons hi his⟩

theorem indexes_eq {ds : List (Str × Decl)} (hd : ∀ f ∈ ds, '\x00' ∉ f.1) {ns : List Node} {is : List Spec.IndexD}
    (h : List.Forall₂ IndexNode ns is) (hn : ∀ i ∈ is, ∀ f ∈ i.fields, '\x00' ∉ f.1) :
    ((∀ i ∈ is, ∀ f ∈ i.fields, ∃ g ∈ ds, Same g.1 f.1) → ∃ r, indexes (ds.map (fun f => utf8Of f.1)) ns = .ok r ∧
      List.Forall₂ (Read ds) is r) ∧
    ((¬ ∀ i ∈ is, ∀ f ∈ i.fields, ∃ g ∈ ds, Same g.1 f.1) → indexes (ds.map (fun f => utf8Of f.1)) ns = .throw) := by
  induction h with
  | nil => exact ⟨fun _ => ⟨[], rfl, .nil⟩, fun x => absurd (by simp) x⟩
  | @cons n i ns is h1 _ ih =>
    have ih := ih (fun j hj => hn j (List.mem_cons_of_mem _ hj))
    obtain ⟨a1, a2⟩ := indexFromTree_eq hd h1 (hn i (List.mem_cons_self ..))
    unfold indexes
    by_cases hi : ∀ f ∈ i.fields, ∃ g ∈ ds, Same g.1 f.1
    · obtain ⟨x, hx, hr⟩ := a1 hi
      rw [hx]
      simp only [Outcome.ok_bind]
      constructor
      · intro y
        obtain ⟨r, e, hq⟩ := ih.1 (fun j hj => y j (List.mem_cons_of_mem _ hj))
        rw [e]
        exact ⟨_, rfl, .cons hr hq⟩
      · intro y
        rw [ih.2 (by
          intro z
          apply y
          intro j hj
          rcases List.mem_cons.mp hj with rfl | hj
          · exact hi
          · exact z j hj)]
        rfl
    · rw [a2 hi]
      exact ⟨fun y => absurd (y i (List.mem_cons_self ..)) hi, fun _ => rfl⟩

theorem indexPart_ne_ub (names : List Bytes) (n : Node) : indexPart names n ≠ .ub := by
  unfold indexPart
  split
  · simp
  · split
    · simp
    · simp
    · exact bind_ne_ub (word_ne_ub _ _) fun _ _ => indexes_ne_ub _ _

theorem indexPart_inv {names : List Bytes} {n : Node} {r} (h : indexPart names n = .ok r) :
    n.type = .list ∧ ∃ f rs is, n.kids = f :: rs ∧ (is ≠ [] → IsStr f "Indexes".toList) ∧ List.Forall₂ IndexNode rs is := by
  unfold indexPart at h
  split at h
  · cases h
  · rename_i ht
    refine ⟨by simpa using ht, ?_⟩
    split at h
    · cases h
    · rename_i f hk
      exact ⟨f, [], [], hk, fun x => absurd rfl x, .nil⟩
    · rename_i f i is hk
      obtain ⟨_, hw, h⟩ := bind_inv h
      obtain ⟨js, hj⟩ := indexes_inv _ _ h
      exact ⟨f, i :: is, js, hk, fun _ => word_ok.mp hw, hj⟩

theorem indexPart_eq {names : List Bytes} {n f : Node} {rs : List Node} (ht : n.type = .list) (hk : n.kids = f :: rs)
    (hf : rs ≠ [] → IsStr f "Indexes".toList) : indexPart names n = indexes names rs := by
  unfold indexPart
  rw [if_neg (by simpa using ht), hk]
  cases rs with
  | nil => rfl
  | cons i is =>
    dsimp only
    rw [word_ok.mpr (hf (by simp))]
    rfl

end Verif.TableOpen
