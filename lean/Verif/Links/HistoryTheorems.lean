import Verif.Links.Remove

/-! # Property theorems: trees edited through their nodes (C104) -/

namespace Verif.Links
open Verif Tree Spec

/-! ## Any history of edits -/

/-- One edit, through the functions of the class. The destructor is given as many turns as
nodes were ever made. -/
def perform (h : Heap) : Op → Outcome (Option Heap)
  | .root v t => do
    let (h, _) ← create h v t none
    .ok (some h)
  | .child p v t => do
    let (h, _) ← addChild h p v t
    .ok (some h)
  | .sibling i => do
    let (h, _) ← addNode h i
    .ok (some h)
  | .set i v t => do
    let h ← setValue h i v t
    .ok (some h)
  | .delete i => destroy h.fresh h i

def performAll (h : Heap) : List Op → Outcome (Option Heap)
  | [] => .ok (some h)
  | o :: os => do
    match ← perform h o with
    | none => .ok none
    | some h => performAll h os

/-- What the nodes say is what the forest is: every member of every node, the order of the
children in both directions, and that nothing else is left. -/
structure Agrees (h : Heap) (f : Forest) : Prop where
  members : ∀ i e, f.node i = some e → ∃ c, h.cell i = some c ∧ c.type = e.type ∧ c.value = e.value ∧
    c.parent = e.parent ∧ c.first = e.kids.head? ∧ c.last = e.kids.getLast? ∧ c.num = e.kids.length
  order : ∀ p e k x, f.node p = some e → e.kids[k]? = some x →
    ∃ c, h.cell x = some c ∧ c.next = e.kids[k + 1]? ∧ c.prev = if k = 0 then none else e.kids[k - 1]?
  alone : ∀ i e, f.node i = some e → e.parent = none → ∃ c, h.cell i = some c ∧ c.next = none ∧ c.prev = none
  gone : ∀ i, f.node i = none → h.cell i = none

theorem split_at {l : List Nat} {k x : Nat} (h : l[k]? = some x) : l = l.take k ++ x :: l.drop (k + 1) := by
  have hk : k < l.length := by
    rcases Nat.lt_or_ge k l.length with h1 | h1
    · exact h1
    · rw [List.getElem?_eq_none h1] at h; cases h
  rw [List.getElem?_eq_getElem hk] at h
  cases h
  rw [← List.drop_eq_getElem_cons hk, List.take_append_drop]

theorem Inv.agrees {h : Heap} {f : Forest} (I : Inv h f) : Agrees h f := by
  refine ⟨I.link.cell, ?_, I.link.top, I.link.dead⟩
  intro p e k x hp hk
  obtain ⟨c, h1, h2, h3⟩ := I.link.sib p e (e.kids.take k) x (e.kids.drop (k + 1)) hp (split_at hk)
  refine ⟨c, h1, by rw [h2, List.head?_drop], ?_⟩
  rw [h3]
  split
  · rename_i h0; subst h0; simp
  · rename_i h0
    rw [List.getLast?_take]
    have hlt : k - 1 < e.kids.length := by
      rcases Nat.lt_or_ge k e.kids.length with h1 | h1
      · omega
      · rw [List.getElem?_eq_none h1] at hk; cases hk
    rw [if_neg h0, List.getElem?_eq_getElem hlt]; rfl

theorem perform_inv {h : Heap} {f : Forest} (I : Inv h f) {o : Op} {g : Forest} (s : Step f o g) :
    ∃ h', perform h o = .ok (some h') ∧ Inv h' g := by
  cases s with
  | root =>
    obtain ⟨h', h1, h2, _⟩ := inv_root I _ _
    exact ⟨h', by unfold perform; dsimp only; rw [h1]; rfl, h2⟩
  | child hp =>
    obtain ⟨h', h1, h2, _⟩ := inv_child I hp _ _
    exact ⟨h', by unfold perform addChild; dsimp only; rw [h1]; rfl, h2⟩
  | sibling hi hp =>
    obtain ⟨c, hc, _, _, c3, _⟩ := I.link.cell _ _ hi
    obtain ⟨_, d, hd, _⟩ := I.wf.par _ _ _ hi hp
    obtain ⟨h', h1, h2, _⟩ := inv_child I hd [] .empty
    refine ⟨h', ?_, h2⟩
    unfold perform addNode
    dsimp only
    rw [deref_ok hc]
    simp only [Outcome.ok_bind]
    rw [c3, hp, h1]; rfl
  | siblingRoot hi hp =>
    obtain ⟨c, hc, _, _, c3, _⟩ := I.link.cell _ _ hi
    obtain ⟨h', h1, h2, _⟩ := inv_root I [] .empty
    refine ⟨h', ?_, h2⟩
    unfold perform addNode
    dsimp only
    rw [deref_ok hc]
    simp only [Outcome.ok_bind]
    rw [c3, hp, h1]; rfl
  | set hi =>
    obtain ⟨h', h1, h2, _⟩ := inv_relabel I hi _ _
    exact ⟨h', by unfold perform; dsimp only; rw [h1]; rfl, h2⟩
  | @delete i _ _ hi r =>
    obtain ⟨h', f', h1, h2, h3⟩ := inv_destroy h.fresh I hi (by rw [I.link.fresh]; exact count_le _)
    refine ⟨h', by unfold perform; exact h1, ?_⟩
    have : f' = g := by
      have e1 : f'.fresh = g.fresh := by rw [h2.fresh, r.fresh]
      have e2 : f'.node = g.node := by
        funext j
        by_cases hb : Below f i j
        · rw [h2.gone j hb, r.gone j hb]
        · rw [h2.kept j hb, r.kept j hb]
      cases f'; cases g; simp_all
    rw [← this]; exact h3

theorem performAll_inv {h : Heap} {f : Forest} (I : Inv h f) {os : List Op} {g : Forest} (s : Steps f os g) :
    ∃ h', performAll h os = .ok (some h') ∧ Inv h' g := by
  induction s generalizing h with
  | nil => exact ⟨h, rfl, I⟩
  | cons s1 _ ih =>
    obtain ⟨h1, e1, I1⟩ := perform_inv I s1
    obtain ⟨h2, e2, I2⟩ := ih I1
    refine ⟨h2, ?_, I2⟩
    unfold performAll
    rw [e1]
    simp only [Outcome.ok_bind]
    exact e2

/-- **C104.** After any history of making, extending, changing and destroying trees, each step
on nodes that exist, no step is undefined, every destruction ends, and the pointers describe
exactly the trees that the history describes. -/
theorem edits_keep_trees {os : List Op} {f : Forest} (s : Steps none_ os f) :
    ∃ h, performAll empty os = .ok (some h) ∧ Agrees h f := by
  obtain ⟨h, h1, h2⟩ := performAll_inv inv_empty s
  exact ⟨h, h1, h2.agrees⟩

/-- Nodes can always be destroyed. -/
theorem removal_exists (f : Forest) (i : Nat) : ∃ f', Removed f i f' := by
  classical
  refine ⟨⟨fun j => if Below f i j then none
      else (f.node j).map (fun e => { e with kids := e.kids.filter (fun k => decide (k ≠ i)) }), f.fresh⟩, rfl, ?_, ?_⟩
  · intro j hb; simp [hb]
  · intro j hb; simp [hb]

/-! ## A concrete history, for the hypotheses of the theorems -/

/-- A root with three children, the last made as a sibling and with a child of its own; one child gets
another value, one is destroyed. -/
def someEdits : List Op :=
  [.root [] .list, .child 0 ['a'] .string, .child 0 ['b'] .string, .sibling 1, .child 3 ['c'] .number,
   .set 2 ['z'] .guid]

def someForest : Forest :=
  relabel (child (child (child (child (root none_ .list []) 0 .string ['a']) 0 .string ['b']) 0 .empty []) 3 .number ['c'])
    2 .guid ['z']

theorem someEdits_steps : Steps none_ someEdits someForest :=
  .cons .root (.cons (.child rfl) (.cons (.child rfl) (.cons (.sibling rfl rfl) (.cons (.child rfl) (.cons (.set rfl) .nil)))))

/-- The same, and then the first child is destroyed. -/
theorem someEdits_delete : ∃ f, Steps none_ (someEdits ++ [.delete 1]) f ∧
    f.node 0 = some ⟨.list, [], none, [2, 3]⟩ ∧ f.node 1 = none ∧ f.node 3 = some ⟨.empty, [], some 0, [4]⟩ := by
  obtain ⟨g, hg⟩ := removal_exists someForest 1
  have w : WF someForest := by
    obtain ⟨_, _, I⟩ := performAll_inv inv_empty someEdits_steps
    exact I.wf
  refine ⟨g, ?_, ?_, ?_, ?_⟩
  · exact .cons .root (.cons (.child rfl) (.cons (.child rfl) (.cons (.sibling rfl rfl) (.cons (.child rfl) (.cons (.set rfl)
      (.cons (.delete rfl hg) .nil))))))
  · rw [hg.kept 0 (fun hb => by have := below_ge w hb; omega)]; rfl
  · exact hg.gone 1 .self
  · rw [hg.kept 3 ?_]
    · rfl
    · intro hb
      cases hb with
      | step h1 h2 h3 =>
        cases h1; cases h2
        have := below_ge w h3; omega

/-- **C104.** Any use of a node that has been destroyed is undefined. -/
theorem destroyed_undefined {os : List Op} {f : Forest} (s : Steps none_ os f) (i : Nat) (hi : f.node i = none) :
    ∃ h, performAll empty os = .ok (some h) ∧
      (∀ n k, subnode n h i k = .ub ∧ at_ n h i k = .ub) ∧ (∀ n, destroy (n + 1) h i = .ub) ∧
      (∀ n text, out (n + 1) h i text = .ub) ∧ (∀ v t, setValue h i v t = .ub) ∧ addNode h i = .ub ∧
      (i ≠ h.fresh → ∀ v t, addChild h i v t = .ub) := by
  obtain ⟨h, h1, h2⟩ := edits_keep_trees s
  have hd : deref h i = .ub := by unfold deref; rw [h2.gone i hi]
  refine ⟨h, h1, ?_, ?_, ?_, ?_, ?_, ?_⟩
  · intro n k; unfold subnode at_; rw [hd]; exact ⟨rfl, rfl⟩
  · intro n; unfold destroy; rw [hd]; rfl
  · intro n text; unfold out; rw [hd]; rfl
  · intro v t; unfold setValue modify; rw [hd]; rfl
  · unfold addNode; rw [hd]; rfl
  · intro hne v t
    unfold addChild create attach modify
    simp only
    rw [show deref ⟨fun j => if j = h.fresh then some ⟨v, t, 0, some i, none, none, none, none, 0⟩ else h.cell j, h.fresh + 1⟩ i = .ub by
      unfold deref; simp only; rw [if_neg hne, h2.gone i hi]]
    rfl

example : ∃ os f, Steps none_ os f ∧ (∃ e, f.node 0 = some e) ∧ f.node 1 = none :=
  let ⟨f, h1, h2, h3, _⟩ := someEdits_delete
  ⟨_, f, h1, ⟨_, h2⟩, h3⟩

/-! ## Children by number and by name -/

theorem kid_next {h : Heap} {f : Forest} (A : Agrees h f) {p : Nat} {e : Entry} (hp : f.node p = some e) {j x : Nat}
    (hx : e.kids[j]? = some x) : ∃ c, deref h x = .ok c ∧ c.next = e.kids[j + 1]? := by
  obtain ⟨c, h1, h2, _⟩ := A.order p e j x hp hx
  exact ⟨c, deref_ok h1, h2⟩

theorem walk_kids {h : Heap} {f : Forest} (A : Agrees h f) {p : Nat} {e : Entry} (hp : f.node p = some e) :
    ∀ (m n j : Nat), m < n → j + m ≤ e.kids.length → walk h n e.kids[j]? (m : Int) = .ok (some e.kids[j + m]?) := by
  intro m
  induction m with
  | zero =>
    intro n j hn _
    obtain ⟨n, rfl⟩ : ∃ k, n = k + 1 := ⟨n - 1, by omega⟩
    unfold walk
    rw [if_pos (by rfl)]; rfl
  | succ m ih =>
    intro n j hn hj
    obtain ⟨n, rfl⟩ : ∃ k, n = k + 1 := ⟨n - 1, by omega⟩
    have hx : e.kids[j]? = some e.kids[j] := List.getElem?_eq_getElem (by omega)
    obtain ⟨c, h1, h2⟩ := kid_next A hp hx
    unfold walk
    rw [if_neg (by omega), hx]
    simp only
    rw [h1]
    simp only [Outcome.ok_bind]
    rw [h2, show ((m + 1 : Nat) : Int) - 1 = (m : Int) by omega, ih n (j + 1) (by omega) (by omega)]
    rw [show j + 1 + m = j + (m + 1) by omega]

theorem walk_negative {h : Heap} {f : Forest} (A : Agrees h f) {p : Nat} {e : Entry} (hp : f.node p = some e) :
    ∀ (n j : Nat) (k : Int), k < 0 → e.kids.length < n + j → 0 < n → walk h n e.kids[j]? k = .ub := by
  intro n
  induction n with
  | zero => intro j k _ _ h0; omega
  | succ n ih =>
    intro j k hk hn _
    unfold walk
    rw [if_neg (by omega)]
    cases hx : e.kids[j]? with
    | none => rfl
    | some x =>
      have hj : j < e.kids.length := by
        rcases Nat.lt_or_ge j e.kids.length with h1 | h1
        · exact h1
        · rw [List.getElem?_eq_none h1] at hx; cases hx
      obtain ⟨c, h1, h2⟩ := kid_next A hp hx
      simp only
      rw [h1]
      simp only [Outcome.ok_bind]
      rw [h2]
      exact ih (j + 1) (k - 1) (by omega) (by omega) (by omega)

/-- **C104.** The child with number `k` is the `k`-th child, or none when there are fewer. -/
theorem child_by_number {os : List Op} {f : Forest} (s : Steps none_ os f) (i : Nat) (e : Entry) (hi : f.node i = some e)
    (k fuel : Nat) (hf : k < fuel) :
    ∃ h, performAll empty os = .ok (some h) ∧ subnode fuel h i k = .ok (some e.kids[k]?) := by
  obtain ⟨h, h1, A⟩ := edits_keep_trees s
  refine ⟨h, h1, ?_⟩
  obtain ⟨c, c0, _, _, _, c4, _, c6⟩ := A.members i e hi
  unfold subnode
  rw [deref_ok c0]
  simp only [Outcome.ok_bind]
  rw [c6, c4]
  by_cases hk : e.kids.length ≤ k
  · rw [if_pos (by omega), List.getElem?_eq_none hk]
  · rw [if_neg (by omega), List.head?_eq_getElem?, walk_kids A hi k fuel 0 hf (by omega), Nat.zero_add]

example : ∃ h, performAll empty someEdits = .ok (some h) ∧ subnode 9 h 0 2 = .ok (some (some 3)) :=
  child_by_number someEdits_steps 0 _ rfl 2 9 (by decide)

/-- **Finding (C104).** Asking for a child with a negative number runs past the last child:
undefined. -/
theorem negative_number_undefined {os : List Op} {f : Forest} (s : Steps none_ os f) (i : Nat) (e : Entry)
    (hi : f.node i = some e) (k : Int) (hk : k < 0) (fuel : Nat) (hf : e.kids.length < fuel) :
    ∃ h, performAll empty os = .ok (some h) ∧ subnode fuel h i k = .ub := by
  obtain ⟨h, h1, A⟩ := edits_keep_trees s
  refine ⟨h, h1, ?_⟩
  obtain ⟨c, c0, _, _, _, c4, _, c6⟩ := A.members i e hi
  unfold subnode
  rw [deref_ok c0]
  simp only [Outcome.ok_bind]
  rw [c6, c4, if_neg (by omega), List.head?_eq_getElem?, walk_negative A hi fuel 0 k hk (by omega) (by omega)]

example : ∃ h, performAll empty someEdits = .ok (some h) ∧ subnode 9 h 0 (-1) = .ub :=
  negative_number_undefined someEdits_steps 0 _ rfl (-1) (by decide) 9 (by decide)

/-- The value of a node. -/
def valueOf (f : Forest) (x : Nat) : Str := ((f.node x).map Entry.value).getD []

theorem seek_kids (eq : Str → Str → Bool) (name : Str) {h : Heap} {f : Forest} (A : Agrees h f) {p : Nat} {e : Entry}
    (hp : f.node p = some e) (w : ∀ x ∈ e.kids, (f.node x).isSome) :
    ∀ (n j : Nat), e.kids.length < n + j → 0 < n → seek eq h name n e.kids[j]? =
      .ok (some ((e.kids.drop j).find? (fun x => eq (valueOf f x) name))) := by
  intro n
  induction n with
  | zero => intro j _ h0; omega
  | succ n ih =>
    intro j hn _
    unfold seek
    cases hx : e.kids[j]? with
    | none =>
      rw [List.getElem?_eq_none_iff] at hx
      rw [List.drop_eq_nil_of_le hx]; rfl
    | some x =>
      have hj : j < e.kids.length := by
        rcases Nat.lt_or_ge j e.kids.length with h1 | h1
        · exact h1
        · rw [List.getElem?_eq_none h1] at hx; cases hx
      obtain ⟨c, h1, h2⟩ := kid_next A hp hx
      rw [List.getElem?_eq_getElem hj] at hx
      have hx' := Option.some.inj hx
      rw [List.drop_eq_getElem_cons hj, hx']
      obtain ⟨ex, hex⟩ := Option.isSome_iff_exists.mp (w x (by rw [← hx']; exact List.getElem_mem hj))
      obtain ⟨c', k1, _, k3, _⟩ := A.members x ex hex
      rw [deref_ok k1] at h1; injection h1 with h1; subst h1
      simp only
      rw [deref_ok k1]
      simp only [Outcome.ok_bind]
      have hv : valueOf f x = c'.value := by unfold valueOf; rw [hex, k3]; rfl
      by_cases he : eq c'.value name = true
      · rw [if_pos he, List.find?_cons_of_pos (by rw [hv, he])]
      · rw [if_neg he, List.find?_cons_of_neg (by rw [hv]; exact he), h2]
        exact ih (j + 1) (by omega) (by omega)

/-- **C104.** The child found by name is the first with that value; `eq` is the comparison used. -/
theorem child_by_name (eq : Str → Str → Bool) {os : List Op} {f : Forest} (s : Steps none_ os f) (i : Nat) (e : Entry)
    (hi : f.node i = some e) (name : Str) (fuel : Nat) (hf : e.kids.length < fuel) :
    ∃ h, performAll empty os = .ok (some h) ∧
      subnodeNamed eq fuel h i name = .ok (some (e.kids.find? (fun x => eq (valueOf f x) name))) := by
  obtain ⟨h, h1, I⟩ := performAll_inv inv_empty s
  have A := I.agrees
  refine ⟨h, h1, ?_⟩
  obtain ⟨c, c0, _, _, _, c4, _, c6⟩ := A.members i e hi
  unfold subnodeNamed
  rw [deref_ok c0]
  simp only [Outcome.ok_bind]
  rw [c4, List.head?_eq_getElem?, seek_kids eq name A hi _ fuel 0 (by omega) (by omega), List.drop_zero]
  intro x hx
  obtain ⟨ex, hex, _⟩ := I.wf.kid i e x hi hx
  rw [hex]; rfl

example : ∃ h, performAll empty someEdits = .ok (some h) ∧ subnodeNamed (fun a b => a == b) 9 h 0 ['z'] = .ok (some (some 2)) :=
  child_by_name (fun a b => a == b) someEdits_steps 0 _ rfl ['z'] 9 (by decide)

theorem step_kids {h : Heap} {f : Forest} (A : Agrees h f) {p : Nat} {e : Entry} (hp : f.node p = some e) :
    ∀ (m n j : Nat), m < n → step h n e.kids[j]? (m : Int) = .ok (some e.kids[j + m]?) := by
  intro m
  induction m with
  | zero =>
    intro n j hn
    obtain ⟨n, rfl⟩ : ∃ k, n = k + 1 := ⟨n - 1, by omega⟩
    unfold step
    rw [if_pos (by rfl)]; rfl
  | succ m ih =>
    intro n j hn
    obtain ⟨n, rfl⟩ : ∃ k, n = k + 1 := ⟨n - 1, by omega⟩
    unfold step
    rw [if_neg (by omega)]
    have key : nextOf h e.kids[j]? = Outcome.ok e.kids[j + 1]? := by
      cases hx : e.kids[j]? with
      | none =>
        rw [List.getElem?_eq_none_iff] at hx
        rw [List.getElem?_eq_none (by omega)]; rfl
      | some x =>
        obtain ⟨c, h1, h2⟩ := kid_next A hp hx
        unfold nextOf
        simp only
        rw [h1]
        simp only [Outcome.ok_bind]
        rw [h2]
    rw [key]
    simp only [Outcome.ok_bind]
    rw [if_neg (by omega), show ((m + 1 : Nat) : Int) - 1 = (m : Int) by omega, ih n (j + 1) (by omega),
      show j + 1 + m = j + (m + 1) by omega]

theorem step_negative (h : Heap) : ∀ (n : Nat) (t : Option Nat) (k : Int), k < 0 →
    step h n t k = .ub ∨ step h n t k = .ok none := by
  intro n
  induction n with
  | zero => intro t k _; exact .inr rfl
  | succ n ih =>
    intro t k hk
    unfold step
    rw [if_neg (by omega)]
    unfold nextOf
    cases t with
    | none =>
      simp only [Outcome.ok_bind]
      split
      · exact .inl rfl
      · exact ih _ _ (by omega)
    | some i =>
      simp only
      cases hd : deref h i with
      | ok c =>
        simp only [Outcome.ok_bind]
        split
        · exact .inl rfl
        · exact ih _ _ (by omega)
      | throw =>
        unfold deref at hd; split at hd <;> cases hd
      | ub => exact .inl rfl

/-- **C104.** Indexing a node gives the child with that number; a number beyond the children, or
a negative one, is never answered: it is undefined. -/
theorem indexing {os : List Op} {f : Forest} (s : Steps none_ os f) (i : Nat) (e : Entry) (hi : f.node i = some e) :
    ∃ h, performAll empty os = .ok (some h) ∧
      (∀ (k x fuel : Nat), e.kids[k]? = some x → k < fuel → at_ fuel h i k = .ok (some x)) ∧
      (∀ k fuel : Nat, e.kids.length ≤ k → k < fuel → at_ fuel h i k = .ub) ∧
      (∀ (k : Int) (fuel : Nat), k < 0 → at_ fuel h i k = .ub ∨ at_ fuel h i k = .ok none) := by
  obtain ⟨h, h1, A⟩ := edits_keep_trees s
  refine ⟨h, h1, ?_⟩
  obtain ⟨c, c0, _, _, _, c4, _, c6⟩ := A.members i e hi
  have e0 : ∀ k fuel, at_ fuel h i k = (step h fuel e.kids[0]? k >>= fun r => match r with
      | none => .ok none | some none => .ub | some (some j) => .ok (some j)) := by
    intro k fuel
    unfold at_
    rw [deref_ok c0]
    simp only [Outcome.ok_bind]
    rw [c4, List.head?_eq_getElem?]
    rfl
  refine ⟨?_, ?_, ?_⟩
  · intro k x fuel hx hk
    rw [e0, step_kids A hi k fuel 0 hk, Nat.zero_add, hx]; rfl
  · intro k fuel hk hf
    rw [e0, step_kids A hi k fuel 0 hf, Nat.zero_add, List.getElem?_eq_none hk]; rfl
  · intro k fuel hk
    rw [e0]
    rcases step_negative h fuel e.kids[0]? k hk with h2 | h2 <;> rw [h2]
    · exact .inl rfl
    · exact .inr rfl

example : ∃ h, performAll empty someEdits = .ok (some h) ∧ at_ 9 h 0 1 = .ok (some 2) ∧ at_ 9 h 0 3 = .ub :=
  let ⟨h, h1, h2, h3, _⟩ := indexing someEdits_steps 0 _ rfl
  ⟨h, h1, h2 1 2 9 rfl (by decide), h3 3 9 (by decide) (by decide)⟩

/-! ## Destroying -/

/-- **C104.** Destroying the root of a tree leaves nothing of the tree and everything else as it
was. -/
theorem destroying_a_root {os : List Op} {f : Forest} (s : Steps none_ os f) (r : Nat) (e : Entry) (hr : f.node r = some e)
    (hp : e.parent = none) :
    ∃ h h' f', performAll empty os = .ok (some h) ∧ destroy h.fresh h r = .ok (some h') ∧ Agrees h' f' ∧
      (∀ j, Below f r j → h'.cell j = none) ∧ (∀ j, ¬ Below f r j → f'.node j = f.node j) := by
  obtain ⟨h, h1, I⟩ := performAll_inv inv_empty s
  obtain ⟨h', f', h2, h3, h4⟩ := inv_destroy h.fresh I hr (by rw [I.link.fresh]; exact count_le _)
  refine ⟨h, h', f', h1, h2, h4.agrees, ?_, ?_⟩
  · intro j hb; exact h4.link.dead j (h3.gone j hb)
  · intro j hb
    rw [h3.kept j hb]
    cases hj : f.node j with
    | none => rfl
    | some d =>
      simp only [Option.map_some]
      rw [filter_notin]
      intro hm
      obtain ⟨e', g1, g2⟩ := I.wf.kid j d r hj hm
      rw [hr] at g1; cases g1
      rw [hp] at g2; cases g2

example : ∃ e, someForest.node 0 = some e ∧ e.parent = none ∧ Below someForest 0 4 :=
  ⟨_, rfl, rfl, .step rfl rfl (.step rfl rfl .self)⟩

/-! ## Paths -/

/-- The numbers shown for a node, from the root down. -/
inductive Numbers (h : Heap) (f : Forest) : Nat → List Nat → Prop where
  | root {i e} : f.node i = some e → e.parent = none → Numbers h f i []
  | step {i e p ps} : f.node i = some e → e.parent = some p → Numbers h f p ps → Numbers h f i (ps ++ [idx h i])

theorem numbers_exist {h : Heap} {f : Forest} (I : Inv h f) : ∀ (n i : Nat) (e : Entry), i < n → f.node i = some e →
    ∃ ps, Numbers h f i ps ∧ ∀ acc, pathList h n i acc = .ok (some (ps ++ acc)) := by
  intro n
  induction n with
  | zero => intro i e hn; omega
  | succ n ih =>
    intro i e hn hi
    obtain ⟨c, c0, _, _, c3, _⟩ := I.link.cell i e hi
    cases hp : e.parent with
    | none =>
      refine ⟨[], .root hi hp, ?_⟩
      intro acc
      unfold pathList
      rw [deref_ok c0]
      simp only [Outcome.ok_bind]
      rw [c3, hp]; rfl
    | some p =>
      obtain ⟨hlt, d, hd, _⟩ := I.wf.par i e p hi hp
      obtain ⟨ps, h1, h2⟩ := ih p d (by omega) hd
      refine ⟨ps ++ [idx h i], .step hi hp h1, ?_⟩
      intro acc
      unfold pathList
      rw [deref_ok c0]
      simp only [Outcome.ok_bind]
      rw [c3, hp]
      simp only
      rw [h2, idx_of c0]
      simp

theorem numbers_inj {h : Heap} {f : Forest} (I : Inv h f) {i : Nat} {ps : List Nat} (hn : Numbers h f i ps) :
    ∀ {j r : Nat}, Numbers h f j ps → Below f r i → Below f r j → (∀ e, f.node r = some e → e.parent = none) → i = j := by
  induction hn with
  | @root i e hi hp =>
    intro j r hj bi bj hr
    have e1 : r = i := by
      cases bi with
      | self => rfl
      | step a b _ => rw [hi] at a; cases a; rw [hp] at b; cases b
    subst e1
    generalize hps : ([] : List Nat) = ps at hj
    cases hj with
    | @root _ d hd hdp =>
      cases bj with
      | self => rfl
      | step a b _ => rw [hd] at a; cases a; rw [hdp] at b; cases b
    | step _ _ _ => simp at hps
  | @step i e p ps hi hp _ ih =>
    intro j r hj bi bj hr
    generalize hps : ps ++ [idx h i] = qs at hj
    cases hj with
    | root _ _ => simp at hps
    | @step _ d q qs hd hq hnq =>
      obtain ⟨h1, h2⟩ := List.append_inj' hps rfl
      subst h1
      simp only [List.cons.injEq, and_true] at h2
      have bp : Below f r p := by
        cases bi with
        | self => have := hr e hi; rw [hp] at this; cases this
        | step a b c => rw [hi] at a; cases a; rw [hp] at b; cases b; exact c
      have bq : Below f r q := by
        cases bj with
        | self => have := hr d hd; rw [hq] at this; cases this
        | step a b c => rw [hd] at a; cases a; rw [hq] at b; cases b; exact c
      have hpq := ih hnq bp bq hr
      subst hpq
      obtain ⟨_, dp, k1, k2⟩ := I.wf.par i e p hi hp
      obtain ⟨_, dp', k3, k4⟩ := I.wf.par j d p hd hq
      rw [k1] at k3; cases k3
      have hs := I.link.sorted p dp k1
      obtain ⟨a, b, hab⟩ := List.append_of_mem k2
      rw [hab] at hs k4
      rw [List.pairwise_append, List.pairwise_cons] at hs
      obtain ⟨_, ⟨s2, _⟩, s3⟩ := hs
      simp only [List.mem_append, List.mem_cons] at k4
      rcases k4 with k4 | rfl | k4
      · have := s3 j k4 i (by simp); omega
      · rfl
      · have := s2 j k4; omega

theorem repr_inj {a b : Nat} (h : (toString a).toList = (toString b).toList) : a = b := by
  have e : ∀ n : Nat, (toString n).toList = Nat.toDigits 10 n := by
    intro n
    show (Nat.repr n).toList = _
    rw [Nat.repr, String.toList_ofList]
  rw [e, e] at h
  have := congrArg (fun l => Nat.ofDigitChars 10 l 0) h
  simp only [Nat.ofDigitChars_toDigits (by decide : 1 < 10) (by decide : 10 ≤ 10)] at this
  exact this

theorem repr_no_colon (n : Nat) : ':' ∉ (toString n).toList := by
  show ':' ∉ (Nat.repr n).toList
  rw [Nat.repr, String.toList_ofList]
  intro h
  have := Nat.isDigit_of_mem_toDigits (by decide) (by decide) h
  revert this; decide

theorem pathText_cons (a : Nat) (p : List Nat) : pathText (a :: p) = ':' :: ((toString a).toList ++ pathText p) := by
  simp [pathText]

theorem pathText_head (p : List Nat) : pathText p = [] ∨ ∃ s, pathText p = ':' :: s := by
  cases p with
  | nil => exact .inl rfl
  | cons a p => exact .inr ⟨_, pathText_cons a p⟩

theorem split_colon {x y s t : Str} (hx : ':' ∉ x) (hy : ':' ∉ y) (hs : s = [] ∨ ∃ u, s = ':' :: u)
    (ht : t = [] ∨ ∃ u, t = ':' :: u) (h : x ++ s = y ++ t) : x = y ∧ s = t := by
  induction x generalizing y with
  | nil =>
    cases y with
    | nil => exact ⟨rfl, h⟩
    | cons c y =>
      exfalso
      rcases hs with rfl | ⟨u, rfl⟩
      · simp at h
      · simp only [List.nil_append, List.cons_append, List.cons.injEq] at h
        exact hy (by rw [h.1]; simp)
  | cons c x ih =>
    cases y with
    | nil =>
      exfalso
      rcases ht with rfl | ⟨u, rfl⟩
      · simp at h
      · simp only [List.nil_append, List.cons_append, List.cons.injEq] at h
        exact hx (by rw [h.1]; simp)
    | cons d y =>
      simp only [List.cons_append, List.cons.injEq] at h
      simp only [List.mem_cons, not_or] at hx hy
      obtain ⟨h1, h2⟩ := ih hx.2 hy.2 h.2
      exact ⟨by rw [h.1, h1], h2⟩

theorem pathText_inj {p q : List Nat} (h : pathText p = pathText q) : p = q := by
  induction p generalizing q with
  | nil =>
    cases q with
    | nil => rfl
    | cons b q => rw [pathText_cons] at h; simp [pathText] at h
  | cons a p ih =>
    cases q with
    | nil => rw [pathText_cons] at h; simp [pathText] at h
    | cons b q =>
      rw [pathText_cons, pathText_cons, List.cons.injEq] at h
      obtain ⟨h1, h2⟩ := split_colon (repr_no_colon a) (repr_no_colon b) (pathText_head p) (pathText_head q) h.2
      rw [repr_inj h1, ih h2]

/-- **C104.** After any history every node has a path, and two nodes of one tree never have the
same path. -/
theorem paths_distinct {os : List Op} {f : Forest} (s : Steps none_ os f) :
    ∃ h, performAll empty os = .ok (some h) ∧
      (∀ i e, f.node i = some e → ∃ p, path f.fresh h i = .ok (some p)) ∧
      ∀ r i j p, (∀ e, f.node r = some e → e.parent = none) → Below f r i → Below f r j →
        (∃ e, f.node i = some e) → (∃ e, f.node j = some e) →
        path f.fresh h i = .ok (some p) → path f.fresh h j = .ok (some p) → i = j := by
  obtain ⟨h, h1, I⟩ := performAll_inv inv_empty s
  have key : ∀ i e, f.node i = some e → ∃ ps, Numbers h f i ps ∧ path f.fresh h i = .ok (some (pathText ps)) := by
    intro i e hi
    obtain ⟨ps, k1, k2⟩ := numbers_exist I f.fresh i e (I.wf.lt hi) hi
    refine ⟨ps, k1, ?_⟩
    unfold path
    rw [k2]
    simp only [Outcome.ok_bind, List.append_nil]
  refine ⟨h, h1, ?_, ?_⟩
  · intro i e hi
    obtain ⟨ps, _, k⟩ := key i e hi
    exact ⟨_, k⟩
  · rintro r i j p hr bi bj ⟨ei, hi⟩ ⟨ej, hj⟩ pi pj
    obtain ⟨ps, k1, k2⟩ := key i ei hi
    obtain ⟨qs, k3, k4⟩ := key j ej hj
    rw [pi] at k2
    rw [pj] at k4
    cases k2
    have h4 : pathText ps = pathText qs := by injection k4 with k4; injection k4
    have := pathText_inj h4
    subst this
    exact numbers_inj I k1 k3 bi bj hr

example : Below someForest 0 4 ∧ Below someForest 0 1 :=
  ⟨.step rfl rfl (.step rfl rfl .self), .step rfl rfl .self⟩

end Verif.Links
