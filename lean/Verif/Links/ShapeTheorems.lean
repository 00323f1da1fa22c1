import Verif.Links.HistoryTheorems

/-! # Property theorems: paths and text of trees in memory (C104) -/

namespace Verif.Links
open Verif Tree Spec

/-! ## Paths without destruction -/

/-- No node is destroyed. -/
def NoDelete : Op → Prop
  | .delete _ => False
  | _ => True

def Exact (h : Heap) (f : Forest) : Prop :=
  ∀ p e k x, f.node p = some e → e.kids[k]? = some x → idx h x = k

theorem exact_child {h h' : Heap} {f : Forest} (I : Inv h f) (E : Exact h f) {p : Nat} {e : Entry} (hp : f.node p = some e)
    {v : Str} {t : NType} (old : ∀ j d, f.node j = some d → idx h' j = idx h j) (e0 : e.kids = [] → idx h' f.fresh = 0)
    (e1 : ∀ q, e.kids.getLast? = some q → idx h' f.fresh = idx h q + 1) : Exact h' (child f p t v) := by
  intro q d k x hd hk
  have main : ∀ d, f.node q = some d → d.kids[k]? = some x → idx h' x = k := by
    intro d hd hk
    obtain ⟨ex, hx, _⟩ := I.wf.kid q d x hd (List.mem_of_getElem? hk)
    rw [old x ex hx]; exact E q d k x hd hk
  simp only [child] at hd
  split at hd
  · cases hd; simp at hk
  · split at hd
    · rename_i hqp
      subst hqp
      rw [hp] at hd; cases hd
      simp only at hk
      rcases Nat.lt_trichotomy k e.kids.length with hlt | heq | hgt
      · rw [List.getElem?_append_left hlt] at hk
        exact main e hp hk
      · subst heq
        rw [List.getElem?_append_right (Nat.le_refl _), Nat.sub_self] at hk
        cases hk
        cases hl : e.kids.getLast? with
        | none =>
          rw [List.getLast?_eq_none_iff] at hl
          rw [e0 hl, hl]; rfl
        | some z =>
          have hpos : 0 < e.kids.length := by
            obtain ⟨a, ha⟩ := last_split hl
            rw [ha]; simp
          rw [e1 z hl, E q e (e.kids.length - 1) z hp (by rw [← List.getLast?_eq_getElem?]; exact hl)]
          omega
      · rw [List.getElem?_eq_none (by simp; omega)] at hk; cases hk
    · exact main d hd hk

theorem perform_exact {h : Heap} {f : Forest} (I : Inv h f) (E : Exact h f) {o : Op} {g : Forest} (s : Step f o g)
    (nd : NoDelete o) : ∃ h', perform h o = .ok (some h') ∧ Inv h' g ∧ Exact h' g := by
  cases s with
  | root =>
    obtain ⟨h', h1, h2, h3⟩ := inv_root I _ _
    refine ⟨h', by unfold perform; dsimp only; rw [h1]; rfl, h2, ?_⟩
    intro p e k x hp hk
    simp only [root] at hp
    split at hp
    · cases hp; simp at hk
    · obtain ⟨ex, hx, _⟩ := I.wf.kid p e x hp (List.mem_of_getElem? hk)
      rw [h3 x ex hx]; exact E p e k x hp hk
  | child hp =>
    obtain ⟨h', h1, h2, h3, h4, h5⟩ := inv_child I hp _ _
    exact ⟨h', by unfold perform addChild; dsimp only; rw [h1]; rfl, h2, exact_child I E hp h3 h4 h5⟩
  | sibling hi hp =>
    obtain ⟨c, hc, _, _, c3, _⟩ := I.link.cell _ _ hi
    obtain ⟨_, d, hd, _⟩ := I.wf.par _ _ _ hi hp
    obtain ⟨h', h1, h2, h3, h4, h5⟩ := inv_child I hd [] .empty
    refine ⟨h', ?_, h2, exact_child I E hd h3 h4 h5⟩
    unfold perform addNode
    dsimp only
    rw [deref_ok hc]
    simp only [Outcome.ok_bind]
    rw [c3, hp, h1]; rfl
  | siblingRoot hi hp =>
    obtain ⟨c, hc, _, _, c3, _⟩ := I.link.cell _ _ hi
    obtain ⟨h', h1, h2, h3⟩ := inv_root I [] .empty
    refine ⟨h', ?_, h2, ?_⟩
    · unfold perform addNode
      dsimp only
      rw [deref_ok hc]
      simp only [Outcome.ok_bind]
      rw [c3, hp, h1]; rfl
    · intro p e k x hp hk
      simp only [root] at hp
      split at hp
      · cases hp; simp at hk
      · obtain ⟨ex, hx, _⟩ := I.wf.kid p e x hp (List.mem_of_getElem? hk)
        rw [h3 x ex hx]; exact E p e k x hp hk
  | @set i e v t hi =>
    obtain ⟨h', h1, h2, h3⟩ := inv_relabel I hi v t
    refine ⟨h', by unfold perform; dsimp only; rw [h1]; rfl, h2, ?_⟩
    intro p d k x hp hk
    have : ∃ d0, f.node p = some d0 ∧ d0.kids = d.kids := by
      simp only [relabel] at hp
      split at hp
      · rename_i hpi
        subst hpi
        rw [hi] at hp; cases hp
        exact ⟨e, hi, rfl⟩
      · exact ⟨d, hp, rfl⟩
    obtain ⟨d0, k1, k2⟩ := this
    rw [← k2] at hk
    obtain ⟨ex, hx, _⟩ := I.wf.kid p d0 x k1 (List.mem_of_getElem? hk)
    rw [h3 x ex hx]; exact E p d0 k x k1 hk
  | delete hi r => exact absurd nd id

theorem performAll_exact {h : Heap} {f : Forest} (I : Inv h f) (E : Exact h f) {os : List Op} {g : Forest} (s : Steps f os g)
    (nd : ∀ o ∈ os, NoDelete o) : ∃ h', performAll h os = .ok (some h') ∧ Inv h' g ∧ Exact h' g := by
  induction s generalizing h with
  | nil => exact ⟨h, rfl, I, E⟩
  | cons s1 _ ih =>
    obtain ⟨h1, e1, I1, E1⟩ := perform_exact I E s1 (nd _ (by simp))
    obtain ⟨h2, e2, I2, E2⟩ := ih I1 E1 (fun o ho => nd o (by simp [ho]))
    refine ⟨h2, ?_, I2, E2⟩
    unfold performAll
    rw [e1]
    simp only [Outcome.ok_bind]
    exact e2

/-- **C104 (partial).** As long as nothing has been destroyed, the path of a node is the list of its
positions among the children, from the root down. Missing: histories with destruction, for
which it is false (`path_after_destruction`). -/
theorem path_is_positions_partial {os : List Op} {f : Forest} (s : Steps none_ os f) (nd : ∀ o ∈ os, NoDelete o)
    (i : Nat) (ps : List Nat) (hp : Positions f i ps) :
    ∃ h, performAll empty os = .ok (some h) ∧ path f.fresh h i = .ok (some (pathText ps)) := by
  obtain ⟨h, h1, I, E⟩ := performAll_exact inv_empty (by intro p e k x hp; simp [none_] at hp) s nd
  refine ⟨h, h1, ?_⟩
  have key : ∀ qs, Numbers h f i qs → qs = ps := by
    induction hp with
    | root hi hpar =>
      intro qs hq
      cases hq with
      | root _ _ => rfl
      | step a b _ => rw [hi] at a; cases a; rw [hpar] at b; cases b
    | step hi hpar hd hk _ ih =>
      intro qs hq
      cases hq with
      | root a b => rw [hi] at a; cases a; rw [hpar] at b; cases b
      | step a b c =>
        rw [hi] at a; cases a
        rw [hpar] at b; cases b
        rw [ih _ c, E _ _ _ _ hd hk]
  have live : ∃ e, f.node i = some e := by cases hp with
    | root h _ => exact ⟨_, h⟩
    | step h _ _ _ _ => exact ⟨_, h⟩
  obtain ⟨e, hi⟩ := live
  obtain ⟨qs, k1, k2⟩ := numbers_exist I f.fresh i e (I.wf.lt hi) hi
  have := key qs k1
  subst this
  unfold path
  rw [k2]
  simp only [Outcome.ok_bind, List.append_nil]

example : ∃ h, performAll empty someEdits = .ok (some h) ∧ path someForest.fresh h 4 = .ok (some ":2:0".toList) :=
  path_is_positions_partial someEdits_steps (by simp [someEdits, NoDelete]) 4 [2, 0]
    (.step (ps := [2]) rfl rfl rfl rfl (.step (ps := []) rfl rfl rfl rfl (.root rfl rfl)))

/-- A root with two children, of which the first is destroyed. -/
def afterDestruction : List Op :=
  [.root [] .list, .child 0 ['a'] .string, .child 0 ['b'] .string, .delete 1]

def pathAndChild (h : Heap) : Option (Str × Nat) :=
  match path 10 h 2, subnode 10 h 0 0 with
  | .ok (some p), .ok (some (some k)) => some (p, k)
  | _, _ => none

/-- **Finding (C104).** After the first of two children is destroyed, the other is child number 0
of its parent, but its path still says 1. -/
theorem path_after_destruction :
    (match performAll empty afterDestruction with | .ok (some h) => pathAndChild h | _ => none) =
      some (":1".toList, 2) := by decide +kernel

/-! ## The text of a tree -/

theorem shows_exist {f : Forest} (w : WF f) : ∀ (m i : Nat) (e : Entry), f.node i = some e → f.fresh ≤ i + m →
    ∃ n, Shows f i n := by
  intro m
  induction m with
  | zero => intro i e hi hm; have := w.lt hi; omega
  | succ m ih =>
    intro i e hi hm
    have all : ∀ ks : List Nat, (∀ k ∈ ks, k ∈ e.kids) → ∃ ns, ShowsAll f ks ns := by
      intro ks
      induction ks with
      | nil => intro _; exact ⟨[], .nil⟩
      | cons k ks ihk =>
        intro hks
        obtain ⟨ns, h1⟩ := ihk (fun x hx => hks x (by simp [hx]))
        obtain ⟨ek, h2, h3⟩ := w.kid i e k hi (hks k (by simp))
        obtain ⟨h4, _⟩ := w.par k ek i h2 h3
        obtain ⟨n, h5⟩ := ih k ek h2 (by omega)
        exact ⟨n :: ns, .cons h5 h1⟩
    obtain ⟨ns, h1⟩ := all e.kids (fun _ h => h)
    exact ⟨_, .mk hi h1⟩

theorem showsAll_length {f : Forest} {ks : List Nat} {ns : List Node} (h : ShowsAll f ks ns) : ks.length = ns.length := by
  match h with
  | .nil => rfl
  | .cons _ h => simp [showsAll_length h]

/-- The type of the last of some nodes. -/
def lastType (ns : List Node) (lt : NType) : NType := ((ns.getLast?).map Node.type).getD lt

theorem lastType_cons (n : Node) (ns : List Node) (lt : NType) : lastType (n :: ns) lt = lastType ns n.type := by
  cases ns with
  | nil => rfl
  | cons m ns => simp [lastType, List.getLast?_cons_cons, List.getLast?_eq_some_getLast]

theorem shows_cell {h : Heap} {f : Forest} (I : Inv h f) {i : Nat} {n : Node} (s : Shows f i n) :
    ∃ c, h.cell i = some c ∧ c.type = n.type := by
  cases s with
  | mk hi _ =>
    obtain ⟨c, h1, h2, _⟩ := I.link.cell _ _ hi
    exact ⟨c, h1, h2⟩

mutual
theorem out_shows {h : Heap} {f : Forest} (I : Inv h f) {i : Nat} {n : Node} (s : Shows f i n) :
    ∃ F, ∀ fuel, F ≤ fuel → ∀ text, out fuel h i text = .ok (some (Tree.out n text)) := by
  match s with
  | .mk (t := t) (v := v) (p := p) (ks := ks) (ns := ns) hi hall =>
    obtain ⟨c, c0, c1, c2, c3, c4, c5, c6⟩ := I.link.cell i _ hi
    simp only at c1 c2 c3 c4 c5 c6
    have hlen := showsAll_length hall
    obtain ⟨F, hF⟩ := outKids_shows I hi (a := []) (is := ks) (by rfl) hall
    refine ⟨F + 1, ?_⟩
    intro fuel hf text
    obtain ⟨m, rfl⟩ : ∃ m, fuel = m + 1 := ⟨fuel - 1, by omega⟩
    unfold out
    rw [deref_ok c0]
    simp only [Outcome.ok_bind]
    cases ns with
    | nil =>
      rw [if_neg (by rw [c6, hlen]; simp), c1, c2]
      rfl
    | cons k ns =>
      rw [if_pos (by rw [c6, hlen]; simp; omega), c4, hF m (by omega)]
      simp only [Outcome.ok_bind]
      have ht : lastType (k :: ns) .unknown = .list ↔ ((k :: ns).getLast?).map Node.type = some .list := by
        unfold lastType
        rw [List.getLast?_eq_some_getLast (by simp)]
        simp
      unfold Tree.out
      simp only
      by_cases hl : lastType (k :: ns) .unknown = .list
      · rw [if_pos hl, if_pos (ht.mp hl)]
      · rw [if_neg hl, if_neg (fun hc => hl (ht.mpr hc))]
termination_by structural s

theorem outKids_shows {h : Heap} {f : Forest} (I : Inv h f) {p : Nat} {e : Entry} (hp : f.node p = some e)
    {a is : List Nat} (hk : e.kids = a ++ is) {ns : List Node} (s : ShowsAll f is ns) :
    ∃ F, ∀ fuel, F ≤ fuel → ∀ lt text, outKids fuel h is.head? lt text =
      .ok (some (Tree.outKids ns text, lastType ns lt)) := by
  match s with
  | .nil =>
    refine ⟨1, ?_⟩
    intro fuel hf lt text
    obtain ⟨m, rfl⟩ : ∃ m, fuel = m + 1 := ⟨fuel - 1, by omega⟩
    rfl
  | .cons (i := i) (is := is) (n := n) (ns := ns) h1 h2 =>
    obtain ⟨F1, hF1⟩ := out_shows I h1
    obtain ⟨F2, hF2⟩ := outKids_shows I hp (a := a ++ [i]) (is := is) (by rw [hk]; simp) h2
    refine ⟨F1 + F2 + 1, ?_⟩
    intro fuel hf lt text
    obtain ⟨m, rfl⟩ : ∃ m, fuel = m + 1 := ⟨fuel - 1, by omega⟩
    obtain ⟨c, c0, c1, _⟩ := I.link.sib p e a i is hp hk
    obtain ⟨c', c0', c2⟩ := shows_cell I h1
    rw [c0] at c0'; cases c0'
    have hlen := showsAll_length h2
    simp only [List.head?_cons]
    unfold outKids
    rw [hF1 m (by omega)]
    simp only [Outcome.ok_bind]
    rw [deref_ok c0]
    simp only [Outcome.ok_bind]
    rw [c1, hF2 m (by omega), lastType_cons, c2]
    have : Tree.outKids (n :: ns) text = Tree.outKids ns (if ns.isEmpty then Tree.out n text else Tree.out n text ++ [',']) := by
      rw [Tree.outKids]
    rw [this]
    cases is with
    | nil =>
      cases ns with
      | nil => rfl
      | cons _ _ => simp at hlen
    | cons _ _ =>
      cases ns with
      | nil => simp at hlen
      | cons _ _ => rfl
termination_by structural s
end

/-- **C104.** After any history, every node stands for one tree, and the text written for the node
is the text of that tree (C41). -/
theorem text_is_text_of_tree {os : List Op} {f : Forest} (s : Steps none_ os f) (i : Nat) (e : Entry) (hi : f.node i = some e) :
    ∃ h n F, performAll empty os = .ok (some h) ∧ Shows f i n ∧
      ∀ fuel, F ≤ fuel → ∀ text, out fuel h i text = .ok (some (Tree.out n text)) := by
  obtain ⟨h, h1, I⟩ := performAll_inv inv_empty s
  obtain ⟨n, hn⟩ := shows_exist I.wf f.fresh i e hi (by omega)
  obtain ⟨F, hF⟩ := out_shows I hn
  exact ⟨h, n, F, h1, hn, hF⟩

example : ∃ e, someForest.node 3 = some e ∧ Shows someForest 3 (.mk .empty [] [.leaf .number ['c']]) :=
  ⟨_, rfl, .mk rfl (.cons (.mk rfl .nil) .nil)⟩

end Verif.Links
