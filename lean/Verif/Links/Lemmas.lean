import Verif.Links.Spec

/-! # Lemmas about linked nodes -/

namespace Verif.Links
open Verif Tree Spec

/-! ## Reading and writing nodes -/

theorem deref_ok {h : Heap} {i : Nat} {c : Cell} (e : h.cell i = some c) : deref h i = .ok c := by
  unfold deref; rw [e]

theorem modify_ok {h : Heap} {i : Nat} {c : Cell} (e : h.cell i = some c) (f : Cell → Cell) :
    modify h i f = .ok (put h i (some (f c))) := by
  unfold modify; rw [deref_ok e]; rfl

theorem put_same (h : Heap) (i : Nat) (c : Option Cell) : (put h i c).cell i = c := by simp [put]
theorem put_other (h : Heap) {i j : Nat} (c : Option Cell) (e : j ≠ i) : (put h i c).cell j = h.cell j := by
  simp [put, e]

/-- A cell with no links. -/
abbrev bare (v : Str) (t : NType) (parent prev : Option Nat) (index : Nat) : Cell :=
  ⟨v, t, 0, parent, none, prev, none, none, index⟩

theorem create_root (h : Heap) (v : Str) (t : NType) :
    ∃ h', create h v t none = .ok (h', h.fresh) ∧ h'.fresh = h.fresh + 1 ∧
      ∀ j, h'.cell j = if j = h.fresh then some (bare v t none none 0) else h.cell j := by
  refine ⟨_, rfl, rfl, fun j => rfl⟩

/-- What a new child does to a node that was there. -/
def adopt (n p : Nat) (last : Option Nat) (j : Nat) (d : Cell) : Cell :=
  { d with num := if j = p then d.num + 1 else d.num
           last := if j = p then some n else d.last
           first := if j = p ∧ last = none then some n else d.first
           next := if last = some j then some n else d.next }

theorem create_child (h : Heap) (v : Str) (t : NType) (p : Nat) (pc : Cell) (hp : h.cell p = some pc)
    (hn : p ≠ h.fresh) (hq : ∀ q, pc.last = some q → q ≠ h.fresh ∧ q ≠ p ∧ ∃ qc, h.cell q = some qc) :
    ∃ h' k, create h v t (some p) = .ok (h', h.fresh) ∧ h'.fresh = h.fresh + 1 ∧
      (pc.last = none → k = 0) ∧ (∀ q qc, pc.last = some q → h.cell q = some qc → k = qc.index + 1) ∧
      ∀ j, h'.cell j = if j = h.fresh then some (bare v t (some p) pc.last k)
        else (h.cell j).map (adopt h.fresh p pc.last j) := by
  unfold create
  simp only
  generalize hh0 : (⟨fun j => if j = h.fresh then some ⟨v, t, 0, some p, none, none, none, none, 0⟩ else h.cell j,
    h.fresh + 1⟩ : Heap) = h0
  have e0 : h0.fresh = h.fresh + 1 := by rw [← hh0]
  have e1 : h0.cell p = some pc := by rw [← hh0]; simp only; rw [if_neg hn, hp]
  have e2 : h0.cell h.fresh = some ⟨v, t, 0, some p, none, none, none, none, 0⟩ := by rw [← hh0]; simp
  have e3 : ∀ j, j ≠ h.fresh → h0.cell j = h.cell j := by intro j hj; rw [← hh0]; simp only; rw [if_neg hj]
  unfold attach
  rw [modify_ok e1]
  simp only [Outcome.ok_bind]
  rw [deref_ok (put_same _ _ _)]
  simp only [Outcome.ok_bind]
  rw [modify_ok (c := ⟨v, t, 0, some p, none, none, none, none, 0⟩) (by rw [put_other _ _ (Ne.symm hn), e2])]
  simp only [Outcome.ok_bind]
  cases hl : pc.last with
  | none =>
    simp only
    rw [modify_ok (c := { pc with num := pc.num + 1, last := none }) (by rw [put_other _ _ hn, put_same])]
    simp only [Outcome.ok_bind]
    rw [modify_ok (put_same _ _ _)]
    refine ⟨_, 0, rfl, e0, (fun _ => rfl), (by intro q qc h; cases h), ?_⟩
    intro j
    by_cases hj : j = h.fresh
    · subst hj
      rw [put_other _ _ (Ne.symm hn), put_other _ _ (Ne.symm hn), put_same, if_pos rfl]
    · rw [if_neg hj]
      by_cases hjp : j = p
      · subst hjp
        rw [put_same, hp]
        simp [adopt]
      · rw [put_other _ _ hjp, put_other _ _ hjp, put_other _ _ hj, put_other _ _ hjp, e3 j hj]
        cases h.cell j with
        | none => rfl
        | some d => simp [adopt, hjp]
  | some q =>
    obtain ⟨hqn, hqp, qc, hqc⟩ := hq q hl
    simp only
    rw [modify_ok (c := qc) (by rw [put_other _ _ hqn, put_other _ _ hqp, e3 q hqn, hqc])]
    simp only [Outcome.ok_bind]
    rw [deref_ok (put_same _ _ _)]
    simp only [Outcome.ok_bind]
    rw [modify_ok (c := ⟨v, t, 0, some p, none, some q, none, none, 0⟩)
      (by rw [put_other _ _ (Ne.symm hqn), put_same])]
    simp only [Outcome.ok_bind]
    rw [modify_ok (c := { pc with num := pc.num + 1, last := some q })
      (by rw [put_other _ _ hn, put_other _ _ (Ne.symm hqp), put_other _ _ hn, put_same])]
    refine ⟨_, qc.index + 1, rfl, e0, (by intro h; cases h), (by intro q' qc' h1 h2; cases h1; rw [hqc] at h2; cases h2; rfl), ?_⟩
    intro j
    by_cases hj : j = h.fresh
    · subst hj
      rw [put_other _ _ (Ne.symm hn), put_same, if_pos rfl]
    · rw [if_neg hj]
      by_cases hjp : j = p
      · subst hjp
        rw [put_same, hp]
        simp [adopt, hqp]
      · rw [put_other _ _ hjp, put_other _ _ hj]
        by_cases hjq : j = q
        · subst hjq
          rw [put_same, hqc]
          simp [adopt, hjp]
        · rw [put_other _ _ hjq, put_other _ _ hj, put_other _ _ hjp, e3 j hj]
          cases h.cell j with
          | none => rfl
          | some d => simp [adopt, hjp, Ne.symm hjq]

/-- What the destruction of `i` does to another node. -/
def orphan (i : Nat) (c : Cell) (j : Nat) (d : Cell) : Cell :=
  { d with next := if c.prev = some j then c.next else d.next
           prev := if c.next = some j then c.prev else d.prev
           first := if c.parent = some j ∧ d.first = some i then c.next else d.first
           last := if c.parent = some j ∧ d.last = some i then c.prev else d.last
           num := if c.parent = some j then d.num - 1 else d.num }

theorem modify_map {h : Heap} {o : Option Nat} (F : Cell → Cell)
    (ho : ∀ q, o = some q → ∃ d, h.cell q = some d) :
    ∃ h', (match o with | some q => modify h q F | none => .ok h) = .ok h' ∧ h'.fresh = h.fresh ∧
      ∀ j, h'.cell j = (h.cell j).map (fun d => if o = some j then F d else d) := by
  cases o with
  | none => exact ⟨h, rfl, rfl, fun j => by cases h.cell j <;> simp⟩
  | some q =>
    obtain ⟨d, hd⟩ := ho q rfl
    refine ⟨_, modify_ok hd F, rfl, fun j => ?_⟩
    by_cases e : j = q
    · subst e; rw [put_same, hd]; simp
    · rw [put_other _ _ e]
      cases h.cell j with
      | none => rfl
      | some x => simp [Ne.symm e]

theorem unlink_ok (h : Heap) (i : Nat) (c : Cell)
    (hp : ∀ q, c.prev = some q → ∃ d, h.cell q = some d) (hx : ∀ q, c.next = some q → ∃ d, h.cell q = some d)
    (hu : ∀ q, c.parent = some q → ∃ d, h.cell q = some d) :
    ∃ h', unlink h i c = .ok h' ∧ h'.fresh = h.fresh ∧
      ∀ j, h'.cell j = if j = i then none else (h.cell j).map (orphan i c j) := by
  obtain ⟨h1, e1, f1, c1⟩ := modify_map (h := h) (o := c.prev) (fun d => { d with next := c.next }) hp
  obtain ⟨h2, e2, f2, c2⟩ := modify_map (h := h1) (o := c.next) (fun d => { d with prev := c.prev })
    (by intro q hq; obtain ⟨d, hd⟩ := hx q hq; rw [c1, hd]; exact ⟨_, rfl⟩)
  obtain ⟨h3, e3, f3, c3⟩ := modify_map (h := h2) (o := c.parent) (fun d =>
      { d with first := if d.first = some i then c.next else d.first,
               last := if d.last = some i then c.prev else d.last,
               num := d.num - 1 })
    (by intro q hq; obtain ⟨d, hd⟩ := hu q hq; rw [c2, c1, hd]; exact ⟨_, rfl⟩)
  refine ⟨put h3 i none, ?_, by show h3.fresh = _; rw [f3, f2, f1], ?_⟩
  · unfold unlink
    rw [show bypassNext h c = .ok h1 from e1]
    simp only [Outcome.ok_bind]
    rw [show bypassPrev h1 c = .ok h2 from e2]
    simp only [Outcome.ok_bind]
    rw [show detach h2 i c = .ok h3 from e3]
    rfl
  · intro j
    by_cases e : j = i
    · subst e; rw [put_same, if_pos rfl]
    · rw [put_other _ _ e, if_neg e, c3, c2, c1]
      cases h.cell j with
      | none => rfl
      | some d =>
        simp only [Option.map_some, orphan]
        by_cases a1 : c.prev = some j <;> by_cases a2 : c.next = some j <;> by_cases a3 : c.parent = some j <;>
          simp [a1, a2, a3]

/-! ## The invariant -/

/-- Well-formed forests. -/
structure WF (f : Forest) : Prop where
  fresh : ∀ j, f.fresh ≤ j → f.node j = none
  nodup : ∀ p e, f.node p = some e → e.kids.Nodup
  kid : ∀ p e x, f.node p = some e → x ∈ e.kids → ∃ ex, f.node x = some ex ∧ ex.parent = some p
  par : ∀ x ex p, f.node x = some ex → ex.parent = some p → p < x ∧ ∃ e, f.node p = some e ∧ x ∈ e.kids

def idx (h : Heap) (x : Nat) : Nat := ((h.cell x).map Cell.index).getD 0

/-- The links are those of the forest. -/
structure Link (h : Heap) (f : Forest) : Prop where
  fresh : h.fresh = f.fresh
  dead : ∀ j, f.node j = none → h.cell j = none
  cell : ∀ j e, f.node j = some e → ∃ c, h.cell j = some c ∧ c.type = e.type ∧ c.value = e.value ∧
    c.parent = e.parent ∧ c.first = e.kids.head? ∧ c.last = e.kids.getLast? ∧ c.num = e.kids.length
  sib : ∀ p e a x b, f.node p = some e → e.kids = a ++ x :: b →
    ∃ c, h.cell x = some c ∧ c.next = b.head? ∧ c.prev = a.getLast?
  top : ∀ j e, f.node j = some e → e.parent = none → ∃ c, h.cell j = some c ∧ c.next = none ∧ c.prev = none
  sorted : ∀ p e, f.node p = some e → e.kids.Pairwise (fun x y => idx h x < idx h y)

structure Inv (h : Heap) (f : Forest) : Prop where
  wf : WF f
  link : Link h f

theorem WF.lt {f : Forest} (w : WF f) {x : Nat} {e : Entry} (h : f.node x = some e) : x < f.fresh := by
  rcases Nat.lt_or_ge x f.fresh with hc | hc
  · exact hc
  · rw [w.fresh x hc] at h; cases h

theorem inv_empty : Inv empty none_ := by
  refine ⟨⟨fun _ _ => rfl, ?_, ?_, ?_⟩, ⟨rfl, fun _ _ => rfl, ?_, ?_, ?_, ?_⟩⟩ <;> intros <;> simp_all [none_]

end Verif.Links
