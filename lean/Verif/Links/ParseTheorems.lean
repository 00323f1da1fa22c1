import Verif.Links.ShapeTheorems

/-! # Property theorems: the parser builds the tree it should (C104) -/

namespace Verif.Links
open Verif Tree Spec

mutual
/-- The tree of a node that is not being built any more; `O` are the nodes being built. -/
inductive Closed (f : Forest) (O : Nat → Prop) : Nat → Node → Prop where
  | mk {i t v p ks ns} : ¬ O i → f.node i = some ⟨t, v, p, ks⟩ → ClosedAll f O ks ns → Closed f O i (.mk t v ns)
inductive ClosedAll (f : Forest) (O : Nat → Prop) : List Nat → List Node → Prop where
  | nil : ClosedAll f O [] []
  | cons {i is n ns} : Closed f O i n → ClosedAll f O is ns → ClosedAll f O (i :: is) (n :: ns)
end

mutual
theorem Closed.shows {f : Forest} {O : Nat → Prop} {i : Nat} {n : Node} (h : Closed f O i n) : Shows f i n := by
  match h with
  | .mk _ h1 h2 => exact .mk h1 h2.shows
termination_by structural h
theorem ClosedAll.shows {f : Forest} {O : Nat → Prop} {is : List Nat} {ns : List Node} (h : ClosedAll f O is ns) :
    ShowsAll f is ns := by
  match h with
  | .nil => exact .nil
  | .cons h1 h2 => exact .cons h1.shows h2.shows
termination_by structural h
end

mutual
/-- Closed trees stay when other nodes change. -/
theorem Closed.keep {f g : Forest} {O O' : Nat → Prop} (hO : ∀ j, ¬ O j → ∀ e, f.node j = some e → ¬ O' j ∧ g.node j = some e)
    {i : Nat} {n : Node} (h : Closed f O i n) : Closed g O' i n := by
  match h with
  | .mk h0 h1 h2 => exact .mk (hO i h0 _ h1).1 (hO i h0 _ h1).2 (h2.keep hO)
termination_by structural h
theorem ClosedAll.keep {f g : Forest} {O O' : Nat → Prop} (hO : ∀ j, ¬ O j → ∀ e, f.node j = some e → ¬ O' j ∧ g.node j = some e)
    {is : List Nat} {ns : List Node} (h : ClosedAll f O is ns) : ClosedAll g O' is ns := by
  match h with
  | .nil => exact .nil
  | .cons h1 h2 => exact .cons (h1.keep hO) (h2.keep hO)
termination_by structural h
end

theorem ClosedAll.append {f : Forest} {O : Nat → Prop} {is : List Nat} {ns : List Node} (h : ClosedAll f O is ns) {i : Nat} {n : Node}
    (hi : Closed f O i n) : ClosedAll f O (is ++ [i]) (ns ++ [n]) := by
  match h with
  | .nil => exact .cons hi .nil
  | .cons h1 h2 => exact .cons h1 (h2.append hi)

/-- The nodes being built, from the innermost out: the finished children of each, then the
next inner one. -/
inductive Chain (f : Forest) (O : Nat → Prop) (r : Nat) : Nat → List Nat → List (List Node) → Prop where
  | root {ks x ns} : O r → f.node r = some ⟨.list, [], none, ks ++ x⟩ → ClosedAll f O ks ns → Chain f O r r x [ns]
  | up {i p ks x ns st} : O i → f.node i = some ⟨.list, [], some p, ks ++ x⟩ → ClosedAll f O ks ns →
      Chain f O r p [i] st → Chain f O r i x (ns :: st)

theorem Chain.keep {f g : Forest} (w : WF f) {O O' : Nat → Prop} {r : Nat}
    (hO : ∀ j, ¬ O j → ∀ e, f.node j = some e → ¬ O' j ∧ g.node j = some e) {i : Nat} {x : List Nat} {st : List (List Node)}
    (h : Chain f O r i x st) (ho : ∀ j, j ≤ i → O j → O' j ∧ g.node j = f.node j) : Chain g O' r i x st := by
  induction h with
  | root h1 h2 h3 => exact .root (ho _ (Nat.le_refl _) h1).1 (by rw [(ho _ (Nat.le_refl _) h1).2, h2]) (h3.keep hO)
  | up h1 h2 h3 _ ih =>
    have hlt := (w.par _ _ _ h2 rfl).1
    exact .up (ho _ (Nat.le_refl _) h1).1 (by rw [(ho _ (Nat.le_refl _) h1).2, h2]) (h3.keep hO)
      (ih (fun j hj hj2 => ho j (by omega) hj2))

/-- The state of the parser: the nodes, among them the tree under construction, and the rest of
the nodes as they were. -/
structure Tied (f0 : Forest) (h : Heap) (t : Nat) (st : List (List Node)) : Prop where
  ex : ∃ f O, Inv h f ∧ Chain f O f0.fresh t [] st ∧ (∀ j, j < f0.fresh → f.node j = f0.node j) ∧
    (∀ j e, f0.fresh ≤ j → f.node j = some e → Below f f0.fresh j) ∧ f0.fresh < f.fresh ∧ (∀ j, O j → j < f.fresh)

theorem Chain.live {f : Forest} {O : Nat → Prop} {r i : Nat} {x : List Nat} {st : List (List Node)} (h : Chain f O r i x st) :
    O i ∧ ∃ p ks ns st', f.node i = some ⟨.list, [], p, ks ++ x⟩ ∧ ClosedAll f O ks ns ∧ st = ns :: st' := by
  cases h with
  | root h1 h2 h3 => exact ⟨h1, none, _, _, [], h2, h3, rfl⟩
  | up h1 h2 h3 _ => exact ⟨h1, _, _, _, _, h2, h3, rfl⟩

theorem Chain.ge {f : Forest} (w : WF f) {O : Nat → Prop} {r i : Nat} {x : List Nat} {st : List (List Node)} (h : Chain f O r i x st) :
    r ≤ i := by
  induction h with
  | root _ _ _ => exact Nat.le_refl _
  | up _ h2 _ _ ih => have := (w.par _ _ _ h2 rfl).1; omega

theorem below_child {f : Forest} (w : WF f) {p : Nat} {t : NType} {v : Str} {e : Entry} (hp : f.node p = some e) {r j : Nat}
    (h : Below f r j) : Below (child f p t v) r j := by
  induction h with
  | self => exact .self
  | @step j k d h1 h2 _ ih =>
    by_cases hj : j = p
    · subst hj
      refine .step (e := { d with kids := d.kids ++ [f.fresh] }) ?_ h2 ih
      simp only [child]
      rw [if_neg (Nat.ne_of_lt (w.lt h1)), h1]; simp
    · refine .step (e := d) ?_ h2 ih
      simp only [child]
      rw [if_neg (Nat.ne_of_lt (w.lt h1)), if_neg hj, h1]

theorem child_other {f : Forest} (w : WF f) {p : Nat} {t : NType} {v : Str} {j : Nat} {e : Entry} (hj : j ≠ p) (h : f.node j = some e) :
    (child f p t v).node j = some e := by
  simp only [child]
  rw [if_neg (Nat.ne_of_lt (w.lt h)), if_neg hj, h]

theorem child_parent {f : Forest} (w : WF f) {p : Nat} {t : NType} {v : Str} {e : Entry} (h : f.node p = some e) :
    (child f p t v).node p = some { e with kids := e.kids ++ [f.fresh] } := by
  simp only [child]
  rw [if_neg (Nat.ne_of_lt (w.lt h)), h]; simp

theorem child_new {f : Forest} {p : Nat} {t : NType} {v : Str} :
    (child f p t v).node f.fresh = some ⟨t, v, some p, []⟩ := by
  simp [child]

/-- What holds of all nodes after a child is added below `t`. -/
theorem tied_rest {f0 f : Forest} (w : WF f) {O : Nat → Prop} {t : Nat} {e : Entry} (ht : f.node t = some e) (hge : f0.fresh ≤ t)
    (k1 : ∀ j, j < f0.fresh → f.node j = f0.node j) (k2 : ∀ j e, f0.fresh ≤ j → f.node j = some e → Below f f0.fresh j)
    (k3 : f0.fresh < f.fresh) (ty : NType) (v : Str) :
    (∀ j, j < f0.fresh → (child f t ty v).node j = f0.node j) ∧
    (∀ j e, f0.fresh ≤ j → (child f t ty v).node j = some e → Below (child f t ty v) f0.fresh j) ∧
    f0.fresh < (child f t ty v).fresh := by
  refine ⟨?_, ?_, ?_⟩
  · intro j hj
    simp only [child]
    rw [if_neg (by omega), if_neg (by omega), k1 j hj]
  · intro j d hj hd
    by_cases hjn : j = f.fresh
    · subst hjn
      exact .step child_new rfl (below_child w ht (k2 t e hge ht))
    · have : ∃ d', f.node j = some d' := by
        simp only [child] at hd
        rw [if_neg hjn] at hd
        split at hd
        · rename_i hjt; exact ⟨e, by rw [hjt]; exact ht⟩
        · exact ⟨d, hd⟩
      obtain ⟨d', hd'⟩ := this
      exact below_child w ht (k2 j d' hj hd')
  · show f0.fresh < f.fresh + 1
    omega

/-- `t->add_child(v, type)` puts a finished leaf at the end. -/
theorem tied_add {f0 : Forest} {h : Heap} {t : Nat} {st : List (List Node)} (T : Tied f0 h t st) (v : Str) (ty : NType) :
    ∃ h' n st', addChild h t v ty = .ok (h', n) ∧ Tree.addChild st (.leaf ty v) = .ok st' ∧ Tied f0 h' t st' := by
  obtain ⟨f, O, I, C, k1, k2, k3, k4⟩ := T.ex
  have w := I.wf
  obtain ⟨hOt, p, ks, ns, st', h1, h2, rfl⟩ := C.live
  obtain ⟨h', g1, g2, _⟩ := inv_child I h1 v ty
  refine ⟨h', f.fresh, (ns ++ [.leaf ty v]) :: st', g1, rfl, ?_⟩
  have hge := C.ge w
  obtain ⟨r1, r2, r3⟩ := tied_rest w (O := O) h1 hge k1 k2 k3 ty v
  have hO : ∀ j, ¬ O j → ∀ e, f.node j = some e → ¬ O j ∧ (child f t ty v).node j = some e := by
    intro j hj e he
    exact ⟨hj, child_other w (by rintro rfl; exact hj hOt) he⟩
  have hnew : Closed (child f t ty v) O f.fresh (.leaf ty v) :=
    .mk (fun hc => Nat.lt_irrefl _ (k4 _ hc)) child_new .nil
  refine ⟨child f t ty v, O, g2, ?_, r1, r2, r3, fun j hj => Nat.lt_succ_of_lt (k4 j hj)⟩
  cases C with
  | root c1 c2 c3 =>
    refine .root c1 (x := []) ?_ ((c3.keep hO).append hnew)
    rw [child_parent w c2]; simp
  | @up _ q ks' _ ns' st'' c1 c2 c3 c4 =>
    have hlt := (w.par _ _ _ c2 rfl).1
    refine .up c1 (ks := ks' ++ [f.fresh]) (x := []) (p := q) ?_ ((c3.keep hO).append hnew) ?_
    · rw [child_parent w c2]; simp
    · refine c4.keep w hO ?_
      intro j hj hj2
      refine ⟨hj2, ?_⟩
      simp only [child]
      rw [if_neg (by have := w.lt c2; omega), if_neg (by omega)]

/-- `t = new Tree("", nd_list, t)` opens a list. -/
theorem tied_enter {f0 : Forest} {h : Heap} {t : Nat} {st : List (List Node)} (T : Tied f0 h t st) :
    ∃ h' n, create h [] .list (some t) = .ok (h', n) ∧ Tied f0 h' n ([] :: st) := by
  obtain ⟨f, O, I, C, k1, k2, k3, k4⟩ := T.ex
  have w := I.wf
  obtain ⟨hOt, p, ks, ns, st', h1, h2, rfl⟩ := C.live
  obtain ⟨h', g1, g2, _⟩ := inv_child I h1 [] .list
  have hge := C.ge w
  obtain ⟨r1, r2, r3⟩ := tied_rest w (O := O) h1 hge k1 k2 k3 .list []
  refine ⟨h', f.fresh, g1, ⟨child f t .list [], fun j => O j ∨ j = f.fresh, g2, ?_, r1, r2, r3, ?_⟩⟩
  · have hO : ∀ j, ¬ O j → ∀ e, f.node j = some e → ¬ (O j ∨ j = f.fresh) ∧ (child f t .list []).node j = some e := by
      intro j hj e he
      refine ⟨?_, child_other w (by rintro rfl; exact hj hOt) he⟩
      rintro (hc | hc)
      · exact hj hc
      · exact Nat.ne_of_lt (w.lt he) hc
    refine .up (.inr rfl) (ks := []) (x := []) (p := t) child_new .nil ?_
    cases C with
    | root c1 c2 c3 =>
      refine .root (.inl c1) ?_ (c3.keep hO)
      rw [child_parent w c2]; simp
    | @up _ q ks' _ ns' st'' c1 c2 c3 c4 =>
      have hlt := (w.par _ _ _ c2 rfl).1
      refine .up (.inl c1) (p := q) ?_ (c3.keep hO) ?_
      · rw [child_parent w c2]; simp
      · refine c4.keep w hO ?_
        intro j hj hj2
        refine ⟨.inl hj2, ?_⟩
        simp only [child]
        rw [if_neg (by have := w.lt c2; omega), if_neg (by omega)]
  · intro j hj
    show j < f.fresh + 1
    rcases hj with hj | rfl
    · exact Nat.lt_succ_of_lt (k4 j hj)
    · exact Nat.lt_succ_self _

/-- `t = t->get_parent()` finishes a list; at the root it is refused. -/
theorem tied_close {f0 : Forest} {s : PSt} {st : List (List Node)} (T : Tied f0 s.heap s.t st) :
    (close s = .throw ∧ Tree.close st = .throw) ∨
    ∃ p st', close s = .ok { s with t := p } ∧ Tree.close st = .ok st' ∧ Tied f0 s.heap p st' := by
  obtain ⟨f, O, I, C, k1, k2, k3, k4⟩ := T.ex
  have w := I.wf
  unfold close
  generalize ht : s.t = t at C ⊢
  cases C with
  | root c1 c2 c3 =>
    obtain ⟨c, g0, _, _, g3, _⟩ := I.link.cell _ _ c2
    left
    rw [deref_ok g0]
    simp only [Outcome.ok_bind]
    rw [g3]
    exact ⟨rfl, rfl⟩
  | @up _ p ks x ns st' c1 c2 c3 c4 =>
    obtain ⟨c, g0, _, _, g3, _⟩ := I.link.cell _ _ c2
    have hlt := (w.par _ _ _ c2 rfl).1
    right
    rw [deref_ok g0]
    simp only [Outcome.ok_bind]
    rw [g3]
    have hO : ∀ j, ¬ O j → ∀ e, f.node j = some e → ¬ (O j ∧ j ≠ t) ∧ f.node j = some e :=
      fun j hj e he => ⟨fun hc => hj hc.1, he⟩
    simp only [List.append_nil] at c2
    have hcl : Closed f (fun j => O j ∧ j ≠ t) t (Node.list ns) := .mk (fun hc => hc.2 rfl) c2 (c3.keep hO)
    cases c4 with
    | @root ks' _ ns' d1 d2 d3 =>
      refine ⟨_, [ns' ++ [Node.list ns]], rfl, rfl, ⟨f, fun j => O j ∧ j ≠ t, I, ?_, k1, k2, k3, fun j hj => k4 j hj.1⟩⟩
      refine .root ⟨d1, by omega⟩ (ks := ks' ++ [t]) (x := []) (by rw [d2]; simp) ((d3.keep hO).append hcl)
    | @up _ q ks' _ ns' st'' d1 d2 d3 d4 =>
      refine ⟨_, (ns' ++ [Node.list ns]) :: st'', rfl, rfl, ⟨f, fun j => O j ∧ j ≠ t, I, ?_, k1, k2, k3, fun j hj => k4 j hj.1⟩⟩
      have hlt2 := (w.par _ _ _ d2 rfl).1
      refine .up ⟨d1, by omega⟩ (ks := ks' ++ [t]) (x := []) (p := q) (by rw [d2]; simp) ((d3.keep hO).append hcl) ?_
      refine d4.keep w hO ?_
      intro j hj hj2
      exact ⟨⟨hj2, by omega⟩, rfl⟩

/-! ## The parser, step by step -/

/-- The parser with nodes and the parser with values are at the same point. -/
def Same (f0 : Forest) (s : PSt) (s' : Tree.PSt) : Prop :=
  s.mode = s'.mode ∧ s.cur = s'.cur ∧ Tied f0 s.heap s.t s'.stack

/-- Both stop with an error or both go on. -/
def Alike {α β : Type} (R : α → β → Prop) (x : Outcome α) (y : Outcome β) : Prop :=
  (x = .throw ∧ y = .throw) ∨ ∃ a b, x = .ok a ∧ y = .ok b ∧ R a b

/-- The part of the state that changes the tree. -/
def Grown (f0 : Forest) (s : PSt) (a : PSt) (st : List (List Node)) : Prop :=
  a.mode = s.mode ∧ a.cur = s.cur ∧ Tied f0 a.heap a.t st

theorem add_alike {f0 : Forest} {s : PSt} {st : List (List Node)} (T : Tied f0 s.heap s.t st) (v : Str) (t : NType) :
    ∃ a st', add s v t = .ok a ∧ Tree.addChild st (.leaf t v) = .ok st' ∧ Grown f0 s a st' := by
  obtain ⟨h', n, st', h1, h2, h3⟩ := tied_add T v t
  refine ⟨{ s with heap := h' }, st', ?_, h2, rfl, rfl, h3⟩
  unfold add
  rw [h1]; rfl

theorem close_alike {f0 : Forest} {s : PSt} {st : List (List Node)} (T : Tied f0 s.heap s.t st) :
    Alike (Grown f0 s) (close s) (Tree.close st) := by
  rcases tied_close T with ⟨h1, h2⟩ | ⟨p, st', h1, h2, h3⟩
  · exact .inl ⟨h1, h2⟩
  · exact .inr ⟨_, st', h1, h2, rfl, rfl, h3⟩

theorem Grown.trans {f0 : Forest} {s a b : PSt} {st st' : List (List Node)} (h1 : Grown f0 s a st) (h2 : Grown f0 a b st') :
    Grown f0 s b st' := ⟨by rw [h2.1, h1.1], by rw [h2.2.1, h1.2.1], h2.2.2⟩

theorem addClassified_alike {f0 : Forest} {s : PSt} {st : List (List Node)} (T : Tied f0 s.heap s.t st) :
    Alike (Grown f0 s) (addClassified s) (Tree.addClassified s.cur st) := by
  unfold addClassified Tree.addClassified
  split
  · exact .inl ⟨rfl, rfl⟩
  · obtain ⟨a, st', h1, h2, h3⟩ := add_alike T s.cur (classify s.cur)
    exact .inr ⟨a, st', h1, h2, h3⟩

theorem closeValue_alike {f0 : Forest} {s : PSt} {st : List (List Node)} (T : Tied f0 s.heap s.t st) :
    Alike (Grown f0 s) (closeValue s) (Tree.closeValue st) := by
  obtain ⟨f, O, I, C, _⟩ := T.ex
  obtain ⟨_, p, ks, ns, st', h1, h2, rfl⟩ := C.live
  obtain ⟨c, g0, _, _, _, g4, _⟩ := I.link.cell _ _ h1
  have hlen := showsAll_length h2.shows
  simp only [List.append_nil] at g4
  unfold closeValue
  rw [deref_ok g0]
  simp only [Outcome.ok_bind]
  rw [g4]
  cases ks with
  | nil =>
    cases ns with
    | cons _ _ => simp at hlen
    | nil => exact close_alike T
  | cons k ks =>
    cases ns with
    | nil => simp at hlen
    | cons n ns =>
      obtain ⟨a, st2, e1, e2, e3⟩ := add_alike T [] .empty
      simp only [List.head?_cons]
      unfold Tree.closeValue
      simp only
      rw [e1, e2]
      simp only [Outcome.ok_bind]
      rcases close_alike e3.2.2 with ⟨k1, k2⟩ | ⟨b, st3, k1, k2, k3⟩
      · exact .inl ⟨k1, k2⟩
      · exact .inr ⟨b, st3, k1, k2, e3.trans k3⟩

theorem enter_same {f0 : Forest} {s : PSt} {st : List (List Node)} (T : Tied f0 s.heap s.t st) :
    ∃ a, enter s = .ok a ∧ Grown f0 s a ([] :: st) := by
  obtain ⟨h', n, h1, h2⟩ := tied_enter T
  refine ⟨{ s with heap := h', t := n }, ?_, rfl, rfl, h2⟩
  unfold enter
  rw [h1]; rfl

/-- Continue both after a change of the tree. -/
theorem alike_bind {f0 : Forest} {s : PSt} {x : Outcome PSt} {y : Outcome (List (List Node))} (h : Alike (Grown f0 s) x y)
    {k : PSt → Outcome PSt} {k' : List (List Node) → Outcome Tree.PSt}
    (hk : ∀ a st, Grown f0 s a st → Alike (Same f0) (k a) (k' st)) :
    Alike (Same f0) (x >>= k) (y >>= k') := by
  rcases h with ⟨rfl, rfl⟩ | ⟨a, st, rfl, rfl, hg⟩
  · exact .inl ⟨rfl, rfl⟩
  · exact hk a st hg

theorem turn_same {f0 : Forest} {s : PSt} {s' : Tree.PSt} (S : Same f0 s s') (c : Char) :
    Alike (Same f0) (turn s c) (Tree.step s' c) := by
  obtain ⟨m, cur, h, t⟩ := s
  obtain ⟨m', cur', st⟩ := s'
  obtain ⟨h1, h2, T⟩ := S
  simp only at h1 h2 T
  subst h1; subst h2
  have ok : ∀ a b, Same f0 a b → Alike (Same f0) (.ok a) (.ok b) := fun a b hs => .inr ⟨a, b, rfl, rfl, hs⟩
  have fin : ∀ (m2 : Mode) (cur2 : Str), Alike (Same f0) (.ok ⟨m2, cur2, h, t⟩) (.ok ⟨m2, cur2, st⟩) :=
    fun m2 cur2 => ok _ _ ⟨rfl, rfl, T⟩
  have adds : ∀ v ty, Alike (Grown f0 ⟨m, cur, h, t⟩) (add ⟨m, cur, h, t⟩ v ty) (Tree.addChild st (.leaf ty v)) := by
    intro v ty
    obtain ⟨a, st', k1, k2, k3⟩ := add_alike (s := ⟨m, cur, h, t⟩) T v ty
    exact .inr ⟨a, st', k1, k2, k3⟩
  cases m with
  | value =>
    unfold turn Tree.step
    simp only
    by_cases c1 : isBlank c = true
    · rw [if_pos c1, if_pos c1]; exact fin _ _
    rw [if_neg c1, if_neg c1]
    by_cases c2 : c = '"'
    · rw [if_pos c2, if_pos c2]; exact fin _ _
    rw [if_neg c2, if_neg c2]
    by_cases c3 : c = '{'
    · rw [if_pos c3, if_pos c3]
      obtain ⟨a, k1, k2⟩ := enter_same (s := ⟨.value, cur, h, t⟩) T
      rw [k1]
      exact ok _ _ ⟨k2.1, k2.2.1, k2.2.2⟩
    rw [if_neg c3, if_neg c3]
    by_cases c4 : c = '}'
    · rw [if_pos c4, if_pos c4]
      refine alike_bind (closeValue_alike (s := ⟨.value, cur, h, t⟩) T) ?_
      intro a st' hg
      exact ok _ _ ⟨rfl, hg.2.1, hg.2.2⟩
    rw [if_neg c4, if_neg c4]
    by_cases c5 : c = ','
    · rw [if_pos c5, if_pos c5]
      have := alike_bind (k := fun a => .ok a) (k' := fun st => .ok ⟨.value, cur, st⟩) (adds [] .empty)
        (fun a st' hg => ok _ _ ⟨hg.1, hg.2.1, hg.2.2⟩)
      rcases this with ⟨k1, k2⟩ | ⟨a, b, k1, k2, k3⟩
      · obtain ⟨a, st', e1, e2, e3⟩ := add_alike (s := ⟨.value, cur, h, t⟩) T [] .empty
        rw [e1] at k1; cases k1
      · obtain ⟨a', st', e1, e2, e3⟩ := add_alike (s := ⟨.value, cur, h, t⟩) T [] .empty
        rw [e1, e2]
        exact ok _ _ ⟨e3.1, e3.2.1, e3.2.2⟩
    rw [if_neg c5, if_neg c5]
    exact fin _ _
  | delimiter =>
    unfold turn Tree.step
    simp only
    by_cases c1 : isBlank c = true
    · rw [if_pos c1, if_pos c1]; exact fin _ _
    rw [if_neg c1, if_neg c1]
    by_cases c2 : c = ','
    · rw [if_pos c2, if_pos c2]; exact fin _ _
    rw [if_neg c2, if_neg c2]
    by_cases c3 : c = '}'
    · rw [if_pos c3, if_pos c3]
      rcases close_alike (s := ⟨.delimiter, cur, h, t⟩) T with ⟨k1, k2⟩ | ⟨a, st', k1, k2, k3⟩
      · rw [k1, k2]; exact .inl ⟨rfl, rfl⟩
      · rw [k1, k2]; exact ok _ _ ⟨k3.1, k3.2.1, k3.2.2⟩
    rw [if_neg c3, if_neg c3]
    exact .inl ⟨rfl, rfl⟩
  | string =>
    unfold turn Tree.step
    simp only
    by_cases c1 : c = '"'
    · rw [if_pos c1, if_pos c1]; exact fin _ _
    rw [if_neg c1, if_neg c1]; exact fin _ _
  | quoteOrEnd =>
    unfold turn Tree.step
    simp only
    by_cases c1 : c = '"'
    · rw [if_pos c1, if_pos c1]; exact fin _ _
    rw [if_neg c1, if_neg c1]
    refine alike_bind (adds cur .string) ?_
    intro a st' hg
    by_cases c2 : isBlank c = true
    · rw [if_pos c2, if_pos c2]; exact ok _ _ ⟨rfl, hg.2.1, hg.2.2⟩
    rw [if_neg c2, if_neg c2]
    by_cases c3 : c = ','
    · rw [if_pos c3, if_pos c3]; exact ok _ _ ⟨rfl, hg.2.1, hg.2.2⟩
    rw [if_neg c3, if_neg c3]
    by_cases c4 : c = '}'
    · rw [if_pos c4, if_pos c4]
      refine alike_bind (close_alike hg.2.2) ?_
      intro b st2 hb
      exact ok _ _ ⟨rfl, by rw [hb.2.1, hg.2.1], hb.2.2⟩
    rw [if_neg c4, if_neg c4]
    exact .inl ⟨rfl, rfl⟩
  | nonstring =>
    unfold turn Tree.step
    simp only
    by_cases c1 : c = ','
    · rw [if_pos c1, if_pos c1]
      refine alike_bind (addClassified_alike (s := ⟨.nonstring, cur, h, t⟩) T) ?_
      intro a st' hg
      exact ok _ _ ⟨rfl, hg.2.1, hg.2.2⟩
    rw [if_neg c1, if_neg c1]
    by_cases c2 : c = '}'
    · rw [if_pos c2, if_pos c2]
      refine alike_bind (addClassified_alike (s := ⟨.nonstring, cur, h, t⟩) T) ?_
      intro a st' hg
      refine alike_bind (close_alike hg.2.2) ?_
      intro b st2 hb
      exact ok _ _ ⟨rfl, by rw [hb.2.1, hg.2.1], hb.2.2⟩
    rw [if_neg c2, if_neg c2]
    exact fin _ _

theorem run_same {f0 : Forest} (text : Str) : ∀ {s : PSt} {s' : Tree.PSt}, Same f0 s s' →
    Alike (Same f0) (run s text) (Tree.run s' text) := by
  induction text with
  | nil => intro s s' S; exact .inr ⟨s, s', rfl, rfl, S⟩
  | cons c text ih =>
    intro s s' S
    unfold run Tree.run
    rcases turn_same S c with ⟨h1, h2⟩ | ⟨a, b, h1, h2, h3⟩
    · rw [h1, h2]; exact .inl ⟨rfl, rfl⟩
    · rw [h1, h2]
      simp only [Outcome.ok_bind]
      exact ih h3

/-- What the finished tree is. -/
def Built (f0 : Forest) (h : Heap) (n : Node) : Prop :=
  ∃ f, Inv h f ∧ Shows f f0.fresh n ∧ (∀ j, j < f0.fresh → f.node j = f0.node j) ∧
    (∀ j e, f0.fresh ≤ j → f.node j = some e → Below f f0.fresh j) ∧ ∃ e, f.node f0.fresh = some e ∧ e.parent = none

theorem finishTree_alike {f0 : Forest} {s : PSt} {st : List (List Node)} (T : Tied f0 s.heap s.t st) :
    Alike (Built f0) (finishTree f0.fresh s) (Tree.finishTree st) := by
  obtain ⟨f, O, I, C, k1, k2, k3, k4⟩ := T.ex
  have w := I.wf
  unfold finishTree
  generalize s.t = t at C ⊢
  cases C with
  | root c1 c2 c3 =>
    rw [if_pos rfl]
    refine .inr ⟨_, _, rfl, rfl, f, I, ?_, k1, k2, _, c2, rfl⟩
    simp only [List.append_nil] at c2
    exact .mk c2 c3.shows
  | @up _ p ks x ns st' c1 c2 c3 c4 =>
    have hlt := (w.par _ _ _ c2 rfl).1
    have hge := c4.ge w
    rw [if_neg (by omega)]
    obtain ⟨_, _, _, _, _, _, _, rfl⟩ := c4.live
    exact .inl ⟨rfl, rfl⟩

theorem finish_alike {f0 : Forest} {s : PSt} {s' : Tree.PSt} (S : Same f0 s s') :
    Alike (Built f0) (finish f0.fresh s) (Tree.finish s') := by
  obtain ⟨m, cur, h, t⟩ := s
  obtain ⟨m', cur', st⟩ := s'
  obtain ⟨h1, h2, T⟩ := S
  simp only at h1 h2 T
  subst h1; subst h2
  have adds : ∀ v ty, Alike (Built f0) (add ⟨m, cur, h, t⟩ v ty >>= finishTree f0.fresh)
      (Tree.addChild st (.leaf ty v) >>= Tree.finishTree) := by
    intro v ty
    obtain ⟨a, st', k1, k2, k3⟩ := add_alike (s := ⟨m, cur, h, t⟩) T v ty
    rw [k1, k2]
    exact finishTree_alike k3.2.2
  cases m with
  | nonstring => exact adds cur (classify cur)
  | quoteOrEnd => exact adds cur .string
  | delimiter => exact finishTree_alike (s := ⟨.delimiter, cur, h, t⟩) T
  | value => exact .inl ⟨rfl, rfl⟩
  | string => exact .inl ⟨rfl, rfl⟩

theorem tied_start {h : Heap} {f0 : Forest} (I : Inv h f0) :
    ∃ h', create h [] .list none = .ok (h', f0.fresh) ∧ Tied f0 h' f0.fresh [[]] := by
  obtain ⟨h', h1, h2, _⟩ := inv_root I [] .list
  have hn : (root f0 .list []).node f0.fresh = some ⟨.list, [], none, []⟩ := by simp [root]
  refine ⟨h', h1, ⟨root f0 .list [], fun j => j = f0.fresh, h2, ?_, ?_, ?_, ?_, ?_⟩⟩
  · exact .root rfl (ks := []) (x := []) hn .nil
  · intro j hj
    simp only [root]
    rw [if_neg (by omega)]
  · intro j e hj he
    by_cases hj2 : j = f0.fresh
    · rw [hj2]; exact .self
    · simp only [root] at he
      rw [if_neg hj2, I.wf.fresh j hj] at he; cases he
  · exact Nat.lt_succ_self _
  · rintro j rfl; exact Nat.lt_succ_self _

theorem parse_alike {h : Heap} {f0 : Forest} (I : Inv h f0) (text : Str) :
    Alike (fun (r : Heap × Nat) n => r.2 = f0.fresh ∧ Built f0 r.1 n) (parse h text) (parseText text) := by
  obtain ⟨h', h1, T⟩ := tied_start I
  unfold parse parseText
  rw [h1]
  simp only [Outcome.ok_bind]
  have S : Same f0 ⟨.value, [], h', f0.fresh⟩ Tree.start := ⟨rfl, rfl, T⟩
  rcases run_same text S with ⟨k1, k2⟩ | ⟨a, b, k1, k2, k3⟩
  · rw [k1, k2]; exact .inl ⟨rfl, rfl⟩
  · rw [k1, k2]
    simp only [Outcome.ok_bind]
    rcases finish_alike k3 with ⟨e1, e2⟩ | ⟨x, n, e1, e2, e3⟩
    · rw [e1, e2]; exact .inl ⟨rfl, rfl⟩
    · rw [e1, e2]
      exact .inr ⟨_, n, rfl, rfl, rfl, e3⟩

/-- **C104.** Whatever trees exist and whatever the text: the parser that builds linked nodes
refuses the texts that the parser of values (C42) refuses. For the others it makes nodes that
stand for the same tree, with consistent links, and leaves the other trees alone. -/
theorem parser_builds_tree {os : List Op} {f0 : Forest} (s : Steps none_ os f0) (text : Str) :
    ∃ h, performAll empty os = .ok (some h) ∧
      ((parse h text = .throw ∧ parseText text = .throw) ∨
       ∃ h' n f, parse h text = .ok (h', f0.fresh) ∧ parseText text = .ok n ∧ Agrees h' f ∧ Shows f f0.fresh n ∧
        ∀ j, j < f0.fresh → f.node j = f0.node j) := by
  obtain ⟨h, h1, I⟩ := performAll_inv inv_empty s
  refine ⟨h, h1, ?_⟩
  rcases parse_alike I text with ⟨k1, k2⟩ | ⟨⟨h', r⟩, n, k1, k2, k3, f, k4, k5, k6, _⟩
  · exact .inl ⟨k1, k2⟩
  · simp only at k3
    subst k3
    exact .inr ⟨h', n, f, k1, k2, k4.agrees, k5, k6⟩

/-- Next to other trees, one text is read and another is refused. -/
example : parseText "{1,{\"a\"}}".toList = .ok (.list [.list [.leaf .number ['1'], .list [.leaf .string ['a']]]]) ∧
    parseText "{1".toList = .throw := ⟨rfl, rfl⟩

/-- **C104.** Destroying a parsed tree leaves exactly the nodes that existed before the text was
parsed. -/
theorem parsed_tree_is_freed {os : List Op} {f0 : Forest} (s : Steps none_ os f0) (text : Str) (n : Node)
    (hp : parseText text = .ok n) :
    ∃ h h' h'' f'', performAll empty os = .ok (some h) ∧ parse h text = .ok (h', f0.fresh) ∧
      destroy h'.fresh h' f0.fresh = .ok (some h'') ∧ Agrees h'' f'' ∧ ∀ j, f''.node j = f0.node j := by
  obtain ⟨h, h1, I⟩ := performAll_inv inv_empty s
  rcases parse_alike I text with ⟨_, k2⟩ | ⟨⟨h', r⟩, n', k1, _, k3, f, k4, _, k6, k7, e, k8, k9⟩
  · rw [hp] at k2; cases k2
  · simp only at k3
    subst k3
    obtain ⟨h'', f'', d1, d2, d3⟩ := inv_destroy h'.fresh k4 k8 (by rw [k4.link.fresh]; exact count_le _)
    refine ⟨h, h', h'', f'', h1, k1, d1, d3.agrees, ?_⟩
    intro j
    by_cases hj : j < f0.fresh
    · have hb : ¬ Below f f0.fresh j := fun hb => by have := below_ge k4.wf hb; omega
      rw [d2.kept j hb, k6 j hj]
      cases hf : f0.node j with
      | none => rfl
      | some d =>
        simp only [Option.map_some]
        rw [filter_notin]
        intro hm
        obtain ⟨x, g1, _⟩ := I.wf.kid j d f0.fresh hf hm
        exact Nat.lt_irrefl _ (I.wf.lt g1)
    · rw [I.wf.fresh j (by omega)]
      cases hf : f.node j with
      | some d => exact d2.gone j (k7 j d (by omega) hf)
      | none =>
        by_cases hb : Below f f0.fresh j
        · exact d2.gone j hb
        · rw [d2.kept j hb, hf]; rfl

mutual
theorem shows_unique {f : Forest} {i : Nat} {n m : Node} (h1 : Shows f i n) (h2 : Shows f i m) : n = m := by
  match h1 with
  | .mk a b =>
    cases h2 with
    | mk c d =>
      rw [a] at c
      injection c with c
      injection c with c1 c2 c3 c4
      subst c1; subst c2; subst c4
      rw [showsAll_unique b d]
termination_by structural h1
theorem showsAll_unique {f : Forest} {is : List Nat} {ns ms : List Node} (h1 : ShowsAll f is ns) (h2 : ShowsAll f is ms) : ns = ms := by
  match h1 with
  | .nil => cases h2; rfl
  | .cons a b =>
    cases h2 with
    | cons c d => rw [shows_unique a c, showsAll_unique b d]
termination_by structural h1
end

/-- **C104.** Reading a text and writing the tree gives what the text of the value tree gives (C41). -/
theorem parse_then_text {os : List Op} {f0 : Forest} (s : Steps none_ os f0) (text : Str) (n : Node) (hp : parseText text = .ok n) :
    ∃ h h' F, performAll empty os = .ok (some h) ∧ parse h text = .ok (h', f0.fresh) ∧
      ∀ fuel, F ≤ fuel → outtext fuel h' (some f0.fresh) = .ok (some (Tree.outtext n)) := by
  obtain ⟨h, h1, I⟩ := performAll_inv inv_empty s
  rcases parse_alike I text with ⟨_, k2⟩ | ⟨⟨h', r⟩, n', k1, k2, k3, f, k4, k5, _⟩
  · rw [hp] at k2; cases k2
  · simp only at k3
    subst k3
    rw [hp] at k2; cases k2
    cases k5 with
    | @mk _ t v p ks ns a b =>
      obtain ⟨c, c0, _, _, _, c4, _⟩ := k4.link.cell _ _ a
      simp only at c4
      cases b with
      | nil =>
        refine ⟨h, h', 0, h1, k1, ?_⟩
        intro fuel _
        unfold outtext
        simp only
        rw [deref_ok c0]
        simp only [Outcome.ok_bind]
        rw [c4]; rfl
      | cons b1 b2 =>
        obtain ⟨F, hF⟩ := out_shows k4 b1
        refine ⟨h, h', F, h1, k1, ?_⟩
        intro fuel hf
        unfold outtext
        simp only
        rw [deref_ok c0]
        simp only [Outcome.ok_bind]
        rw [c4]
        simp only [List.head?_cons]
        rw [hF fuel hf]; rfl

end Verif.Links
