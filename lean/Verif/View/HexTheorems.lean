import Verif.View.HexSpec

/-! # Property theorems: editing bytes and going back (C114) -/

namespace Verif.View.Hex
open Verif

/-! ## Bytes -/

theorem insert_in {b : Bytes} {i : Nat} (d : Bytes) (h : i ≤ b.length) : baInsert b i d = b.take i ++ d ++ b.drop i := by
  unfold baInsert
  by_cases hd : d = []
  · rw [if_pos (.inr hd), hd]; simp
  · rw [if_neg (by intro hh; rcases hh with hh | hh; · omega
                   · exact hd hh), if_pos (by simpa using h)]
    rfl

theorem remove_in {b : Bytes} {i n : Nat} (h : i + n ≤ b.length) : baRemove b i n = b.take i ++ b.drop (i + n) := by
  unfold baRemove
  by_cases hn : n = 0
  · rw [if_pos (.inl (by omega)), hn]; simp
  · rw [if_neg (by omega)]
    rfl

theorem mid_in (b : Bytes) (i n : Nat) : baMid b i n = (b.drop i).take n := by
  unfold baMid
  rw [if_neg (by omega)]
  rfl

theorem split_at {b : Bytes} {i n : Nat} (h : i + n ≤ b.length) : ∃ x y z : Bytes, b = x ++ y ++ z ∧ x.length = i ∧ y.length = n := by
  refine ⟨b.take i, (b.drop i).take n, b.drop (i + n), ?_, by simp; omega, by simp; omega⟩
  rw [List.append_assoc, ← List.drop_drop, List.take_append_drop, List.take_append_drop]

theorem insert_mid (x y : Bytes) (d : Bytes) {i : Nat} (h : x.length = i) : baInsert (x ++ y) i d = x ++ d ++ y := by
  subst h
  rw [insert_in d (by simp), List.take_left, List.drop_left]

theorem remove_mid (x y z : Bytes) {i n : Nat} (h : x.length = i) (hn : y.length = n) : baRemove (x ++ y ++ z) i n = x ++ z := by
  subst h hn
  rw [remove_in (by simp), List.append_assoc, List.take_left, ← List.drop_drop, List.drop_left, List.drop_left]

theorem mid_mid (x y z : Bytes) {i n : Nat} (h : x.length = i) (hn : y.length = n) : baMid (x ++ y ++ z) i n = y := by
  subst h hn
  rw [mid_in, List.append_assoc, List.drop_left, List.take_left]

theorem replace_mid (x y z : Bytes) (d : Bytes) {i : Nat} (h : x.length = i) (hn : y.length = d.length) :
    bufReplace (x ++ y ++ z) i d = x ++ d ++ z := by
  unfold bufReplace
  rw [remove_mid x y z h hn, insert_mid x z d h]

/-! ## Commands -/

/-- The command of an edit. -/
def cmdOf : Op → Option Cmd
  | .insert off data => some (.insert off data)
  | .remove off len => some (.remove off len [])
  | .replace off data => some (.replace off data [])
  | _ => none

theorem cmd_ok {b b' : Bytes} {op : Op} {c : Cmd} (hw : Spec.Within b op) (hc : cmdOf op = some c) (hb : Spec.edited b op = some b') :
    (c.redo b).2 = b' ∧ (c.redo b).1.undo b' = b ∧ (c.redo b).1.redo b = c.redo b := by
  cases op with
  | undo => cases hc
  | redo => cases hc
  | insert off data =>
    cases hc; cases hb
    have hw : off ≤ b.length := hw
    obtain ⟨x, y, z, rfl, hx, hy⟩ := split_at (n := 0) (b := b) (i := off) (by omega)
    have : y = [] := List.eq_nil_of_length_eq_zero hy
    subst this
    simp only [List.append_nil, Cmd.redo, Cmd.undo]
    subst hx
    refine ⟨?_, ?_, trivial⟩
    · rw [insert_mid x z data rfl, List.take_left, List.drop_left]
    · rw [List.take_left, List.drop_left]
      exact remove_mid x data z rfl rfl
  | remove off len =>
    cases hc; cases hb
    obtain ⟨x, y, z, rfl, hx, hy⟩ := split_at (b := b) hw
    simp only [Cmd.redo, Cmd.undo]
    subst hx hy
    have e : (x ++ y ++ z).take x.length ++ (x ++ y ++ z).drop (x.length + y.length) = x ++ z := by
      rw [List.append_assoc, List.take_left, ← List.drop_drop, List.drop_left, List.drop_left]
    refine ⟨?_, ?_, trivial⟩
    · rw [remove_mid x y z rfl rfl, e]
    · rw [e, mid_mid x y z rfl rfl]
      exact insert_mid x z y rfl
  | replace off data =>
    cases hc; cases hb
    obtain ⟨x, y, z, rfl, hx, hy⟩ := split_at (b := b) hw
    simp only [Cmd.redo, Cmd.undo]
    subst hx
    have e : (x ++ y ++ z).take x.length ++ data ++ (x ++ y ++ z).drop (x.length + data.length) = x ++ data ++ z := by
      rw [← hy, List.append_assoc x, List.take_left, ← List.drop_drop, List.drop_left, List.drop_left]
    refine ⟨?_, ?_, trivial⟩
    · rw [replace_mid x y z data rfl hy, e]
    · rw [e, mid_mid x y z rfl hy]
      exact replace_mid x data z y rfl hy.symm

/-! ## The history -/

/-- These commands, the nearest first, lead back through these bytes. -/
inductive Back : List Cmd → Bytes → List Bytes → Prop
  | nil {b} : Back [] b []
  | cons {c cs b p ps} : c.undo b = p → c.redo p = (c, b) → Back cs p ps → Back (c :: cs) b (p :: ps)

/-- These commands lead forth through these bytes. -/
inductive Forth : List Cmd → Bytes → List Bytes → Prop
  | nil {b} : Forth [] b []
  | cons {c cs b n ns} : c.undo n = b → c.redo b = (c, n) → Forth cs n ns → Forth (c :: cs) b (n :: ns)

/-- The document stands in this history. -/
def Stands (d : Doc) (h : Spec.History) : Prop :=
  d.buf = h.now ∧ ∃ back forth : List Cmd, d.cmds = back.reverse ++ forth ∧ d.done = back.length ∧ Back back h.now h.past ∧ Forth forth h.now h.next

theorem push_stands {d : Doc} {h : Spec.History} {op : Op} {c : Cmd} {b : Bytes} (hs : Stands d h) (hw : Spec.Within h.now op)
    (hc : cmdOf op = some c) (hb : Spec.edited h.now op = some b) : Stands (d.push c) ⟨h.now :: h.past, b, []⟩ := by
  obtain ⟨he, back, forth, h1, h2, h3, h4⟩ := hs
  obtain ⟨k1, k2, k3⟩ := cmd_ok hw hc hb
  have ht : d.cmds.take d.done = back.reverse := by rw [h1, h2, List.take_left' (by simp)]
  refine ⟨?_, (c.redo h.now).1 :: back, [], ?_, ?_, ?_, .nil⟩
  · show (c.redo d.buf).2 = b
    rw [he]; exact k1
  · show d.cmds.take d.done ++ [(c.redo d.buf).1] = _
    rw [ht, he]; simp
  · show (d.cmds.take d.done).length + 1 = _
    rw [ht]; simp
  · refine .cons k2 ?_ h3
    rw [k3, ← k1]

theorem step_stands {d : Doc} {h : Spec.History} {op : Op} (hs : Stands d h) (hw : Spec.Within h.now op) : Stands (d.step op) (h.step op) := by
  cases op with
  | insert off data => exact push_stands hs hw rfl rfl
  | remove off len => exact push_stands hs hw rfl rfl
  | replace off data => exact push_stands hs hw rfl rfl
  | undo =>
    obtain ⟨he, back, forth, h1, h2, h3, h4⟩ := hs
    obtain ⟨past, now, next⟩ := h
    dsimp only at *
    unfold Doc.step Spec.History.step
    dsimp only
    unfold Doc.undo
    cases h3 with
    | nil =>
      rw [show d.done = 0 from h2]
      exact ⟨he, [], forth, h1, h2, .nil, h4⟩
    | @cons c cs _ p ps u r hb =>
      rw [show d.done = cs.length + 1 from h2]
      dsimp only
      have hg : d.cmds[cs.length]? = some c := by
        rw [h1, List.reverse_cons, List.append_assoc, List.getElem?_append_right (by simp)]
        simp
      rw [hg]
      dsimp only
      refine ⟨?_, cs, c :: forth, ?_, rfl, hb, .cons u r h4⟩
      · show c.undo d.buf = p
        rw [he]; exact u
      · show d.cmds = _
        rw [h1]; simp
      
  | redo =>
    obtain ⟨he, back, forth, h1, h2, h3, h4⟩ := hs
    obtain ⟨past, now, next⟩ := h
    dsimp only at *
    unfold Doc.step Spec.History.step
    dsimp only
    unfold Doc.redo
    cases h4 with
    | nil =>
      rw [show d.cmds[d.done]? = none by rw [h1, h2]; simp]
      exact ⟨he, back, [], h1, h2, h3, .nil⟩
    | @cons c cs _ n ns u r hf =>
      have hg : d.cmds[d.done]? = some c := by
        rw [h1, h2, List.getElem?_append_right (by simp)]
        simp
      rw [hg]
      dsimp only
      rw [he, r]
      refine ⟨rfl, c :: back, cs, ?_, ?_, .cons u r h3, hf⟩
      · show d.cmds.set d.done c = _
        rw [h1, h2, List.set_append_right _ _ (by simp)]
        simp
      · show d.done + 1 = _
        rw [h2]; simp

/-- **C114.** After any sequence of edits within the bytes, goings back and forth, the document holds the bytes the history has at
that point: going back gives exactly the bytes before the edit, going forth those after it, and a new edit drops what was undone. -/
theorem history_kept (b : Bytes) (ops : List Op) (ha : Spec.Allowed ⟨[], b, []⟩ ops) :
    ((Doc.new b).run ops).buf = (ops.foldl Spec.History.step ⟨[], b, []⟩).now := by
  have key : ∀ (ops : List Op) (d : Doc) (h : Spec.History), Stands d h → Spec.Allowed h ops →
      Stands (d.run ops) (ops.foldl Spec.History.step h) := by
    intro ops
    induction ops with
    | nil => intro d h hs _; exact hs
    | cons op ops ih => intro d h hs ha; exact ih _ _ (step_stands hs ha.1) ha.2
  exact (key ops (Doc.new b) ⟨[], b, []⟩ ⟨rfl, [], [], rfl, rfl, .nil, .nil⟩ ha).1

theorem allowed_append {h : Spec.History} {xs ys : List Op} :
    Spec.Allowed h (xs ++ ys) ↔ Spec.Allowed h xs ∧ Spec.Allowed (xs.foldl Spec.History.step h) ys := by
  induction xs generalizing h with
  | nil => simp [Spec.Allowed]
  | cons x xs ih => simp only [List.cons_append, Spec.Allowed, List.foldl_cons, ih, and_assoc]

theorem allowed_undos (h : Spec.History) (n : Nat) : Spec.Allowed h (List.replicate n .undo) := by
  induction n generalizing h with
  | zero => trivial
  | succ n ih => exact ⟨trivial, ih _⟩

theorem undos_same {h h' : Spec.History} (hp : h.past = h'.past) (hn : h.now = h'.now) (n : Nat) :
    ((List.replicate n Op.undo).foldl Spec.History.step h).now = ((List.replicate n Op.undo).foldl Spec.History.step h').now := by
  induction n generalizing h h' with
  | zero => exact hn
  | succ n ih =>
    simp only [List.replicate_succ, List.foldl_cons]
    obtain ⟨past, now, next⟩ := h
    obtain ⟨past', now', next'⟩ := h'
    dsimp only at hp hn
    subst hp hn
    refine ih ?_ ?_ <;> cases past <;> rfl

/-- **C114.** As many goings back as there were edits give the bytes as they were at first. -/
theorem all_undone (b : Bytes) (edits : List Op) (ha : Spec.Allowed ⟨[], b, []⟩ edits) (he : ∀ op ∈ edits, op ≠ .undo ∧ op ≠ .redo) :
    ((Doc.new b).run (edits ++ List.replicate edits.length .undo)).buf = b := by
  rw [history_kept b _ (allowed_append.mpr ⟨ha, allowed_undos _ _⟩), List.foldl_append]
  clear ha
  have key : ∀ (n : Nat) (edits : List Op), edits.length = n → (∀ op ∈ edits, op ≠ .undo ∧ op ≠ .redo) → ∀ h : Spec.History,
      ((List.replicate n Op.undo).foldl Spec.History.step (edits.foldl Spec.History.step h)).now = h.now := by
    intro n
    induction n with
    | zero =>
      intro es hl _ h
      rw [List.eq_nil_of_length_eq_zero hl]
      rfl
    | succ n ih =>
      intro es hl he h
      have hne : es ≠ [] := by intro e; rw [e] at hl; cases hl
      rw [← List.dropLast_concat_getLast hne] at he ⊢
      rw [List.foldl_append, List.replicate_succ, List.foldl_cons]
      generalize hg : es.dropLast.foldl Spec.History.step h = g
      have hlast := he (es.getLast hne) (by simp)
      have h1 : (([es.getLast hne].foldl Spec.History.step g).step .undo).past = g.past := by
        generalize es.getLast hne = x at hlast
        cases x with
        | undo => exact absurd rfl hlast.1
        | redo => exact absurd rfl hlast.2
        | insert => rfl
        | remove => rfl
        | replace => rfl
      have h2 : (([es.getLast hne].foldl Spec.History.step g).step .undo).now = g.now := by
        generalize es.getLast hne = x at hlast
        cases x with
        | undo => exact absurd rfl hlast.1
        | redo => exact absurd rfl hlast.2
        | insert => rfl
        | remove => rfl
        | replace => rfl
      rw [undos_same h1 h2, ← hg]
      exact ih es.dropLast (by simp [hl]) (fun op ho => he op (by simp [ho])) h
  exact key edits.length edits rfl he _

example : Spec.Allowed ⟨[], [1, 2, 3], []⟩ [.insert 1 [9, 9], .remove 0 2, .undo, .replace 3 [7, 8], .undo, .redo] ∧
    ((Doc.new [1, 2, 3]).run [.insert 1 [9, 9], .remove 0 2, .undo, .replace 3 [7, 8], .undo, .redo]).buf = [1, 9, 9, 7, 8] := by
  refine ⟨⟨?_, ?_, ?_, ?_, ?_, ?_, trivial⟩, by decide⟩ <;> decide

/-! ## Selections -/

/-- Both ends of the selection are within their lines. -/
def Doc.Placed (d : Doc) : Prop := d.pos.column < d.width ∧ d.sel.column < d.width

theorem less_lines {w a b x y : Nat} (h : a < b) (hx : x < w) : a * w + x < b * w + y := by
  have : (a + 1) * w ≤ b * w := Nat.mul_le_mul_right w h
  rw [Nat.add_mul] at this
  omega

theorem ends (d : Doc) (h : d.Placed) :
    d.offset d.selStart = min (d.offset d.pos) (d.offset d.sel) ∧ d.offset d.selEnd = max (d.offset d.pos) (d.offset d.sel) := by
  unfold Doc.selStart Doc.selEnd
  rcases Nat.lt_trichotomy d.pos.line d.sel.line with hl | hl | hl
  · have : d.offset d.pos < d.offset d.sel := less_lines hl h.1
    rw [if_pos hl, if_neg (by omega), if_neg (by omega)]
    omega
  · have e : d.offset d.pos + d.sel.column = d.offset d.sel + d.pos.column := by unfold Doc.offset; rw [hl]; omega
    constructor <;> (repeat' split) <;> omega
  · have : d.offset d.sel < d.offset d.pos := less_lines hl h.2
    rw [if_pos hl, if_neg (by omega), if_neg (by omega)]
    omega

/-- **C114.** What is copied are the bytes between the ends of the selection, both included, whichever end the cursor is at. -/
theorem selected_bytes (d : Doc) (h : d.Placed) (hs : d.pos ≠ d.sel) :
    d.selectedBytes = Spec.between d.buf (d.offset d.pos) (d.offset d.sel) := by
  obtain ⟨e1, e2⟩ := ends d h
  unfold Doc.selectedBytes Doc.hasSelection Doc.selLength Spec.between
  rw [if_pos (by simpa using hs), e1, e2,
    show ((max (d.offset d.pos) (d.offset d.sel) : Nat) : Int) - (min (d.offset d.pos) (d.offset d.sel) : Nat) + 1 =
      ((max (d.offset d.pos) (d.offset d.sel) - min (d.offset d.pos) (d.offset d.sel) + 1 : Nat) : Int) by omega, mid_in]

/-- **C114.** Removing the selection removes these bytes, and only these, and going back restores them. -/
theorem selection_removed (d : Doc) (h : d.Placed) (hs : d.pos ≠ d.sel) (hl : max (d.offset d.pos) (d.offset d.sel) < d.buf.length) :
    d.removeSelection.buf = d.buf.take (min (d.offset d.pos) (d.offset d.sel)) ++ d.buf.drop (max (d.offset d.pos) (d.offset d.sel) + 1) ∧
    d.removeSelection.hasSelection = false ∧ (d.done ≤ d.cmds.length → d.removeSelection.undo.buf = d.buf) := by
  obtain ⟨e1, e2⟩ := ends d h
  have hw : Spec.Within d.buf (.remove (min (d.offset d.pos) (d.offset d.sel))
      (max (d.offset d.pos) (d.offset d.sel) - min (d.offset d.pos) (d.offset d.sel) + 1)) := by
    show _ + _ ≤ _
    omega
  obtain ⟨k1, k2, _⟩ := cmd_ok hw rfl rfl
  have hr : d.removeSelection = { d.push (.remove (min (d.offset d.pos) (d.offset d.sel) : Nat)
      (max (d.offset d.pos) (d.offset d.sel) - min (d.offset d.pos) (d.offset d.sel) + 1 : Nat) []) with sel := d.pos } := by
    unfold Doc.removeSelection Doc.hasSelection Doc.remove Doc.selLength
    rw [if_pos (by simpa using hs), e1, e2,
      show ((max (d.offset d.pos) (d.offset d.sel) : Nat) : Int) - (min (d.offset d.pos) (d.offset d.sel) : Nat) + 1 =
        ((max (d.offset d.pos) (d.offset d.sel) - min (d.offset d.pos) (d.offset d.sel) + 1 : Nat) : Int) by omega]
    rfl
  refine ⟨?_, ?_, ?_⟩
  · rw [hr]
    refine k1.trans ?_
    congr 2
    omega
  · rw [hr]
    unfold Doc.hasSelection
    simp [Doc.push]
  · intro hd
    rw [hr]
    unfold Doc.undo Doc.push
    dsimp only
    rw [List.getElem?_append_right (by simp)]
    simp only [Nat.sub_self, List.getElem?_cons_zero]
    rw [k1]
    exact k2

/-- The hypotheses are met: a selection over the end of a line. -/
example : ((⟨[1, 2, 3, 4, 5], [], 0, ⟨1, 0, 1⟩, ⟨0, 1, 1⟩, 3, true⟩ : Doc).selectedBytes = [2, 3, 4]) ∧
    (⟨[1, 2, 3, 4, 5], [], 0, ⟨1, 0, 1⟩, ⟨0, 1, 1⟩, 3, true⟩ : Doc).Placed := by
  refine ⟨by decide, by decide, by decide⟩

/-! ## Searching -/

theorem prefix_stands (b p : Bytes) : p.isPrefixOf b = true ↔ ∃ post, b = p ++ post := by
  rw [List.isPrefixOf_iff_prefix]
  exact ⟨fun ⟨t, ht⟩ => ⟨t, ht.symm⟩, fun ⟨t, ht⟩ => ⟨t, ht.symm⟩⟩

theorem stands_iff (b p : Bytes) (i : Nat) : Spec.StandsAt b p i ↔ i ≤ b.length ∧ p.isPrefixOf (b.drop i) = true := by
  rw [prefix_stands]
  constructor
  · rintro ⟨pre, post, rfl, rfl⟩
    refine ⟨by simp, post, by rw [List.append_assoc, List.drop_left]⟩
  · rintro ⟨hi, post, he⟩
    exact ⟨b.take i, post, by rw [List.append_assoc, ← he, List.take_append_drop], by simp [hi]⟩

theorem findFrom_spec (p : Bytes) (b : Bytes) (i : Nat) (hb : i ≤ b.length) :
    (∀ k, findFrom p i (b.drop i) = some k → i ≤ k ∧ Spec.StandsAt b p k ∧ ∀ j, i ≤ j → j < k → ¬ Spec.StandsAt b p j) ∧
    (findFrom p i (b.drop i) = none → ∀ j, i ≤ j → ¬ Spec.StandsAt b p j) := by
  generalize hn : b.length - i = n
  induction n generalizing i with
  | zero =>
    have : i = b.length := by omega
    subst this
    have e : b.drop b.length = [] := by simp
    have hp : p.isPrefixOf (b.drop b.length) = true ↔ Spec.StandsAt b p b.length := by rw [stands_iff]; simp
    rw [e] at hp ⊢
    unfold findFrom
    constructor
    · intro k hk
      split at hk
      · rename_i hh
        cases hk
        exact ⟨Nat.le_refl _, hp.mp hh, fun j h1 h2 => by omega⟩
      · cases hk
    · intro hk j hj hs
      split at hk
      · cases hk
      · rename_i hh
        have := ((stands_iff b p j).mp hs).1
        have : j = b.length := by omega
        subst this
        exact hh (hp.mpr hs)
  | succ n ih =>
    have hlt : i < b.length := by omega
    have hp : p.isPrefixOf (b.drop i) = true ↔ Spec.StandsAt b p i := by rw [stands_iff]; simp [hb]
    rw [List.drop_eq_getElem_cons hlt] at hp ⊢
    obtain ⟨i1, i2⟩ := ih (i + 1) (by omega) (by omega)
    unfold findFrom
    constructor
    · intro k hk
      split at hk
      · rename_i hh
        cases hk
        exact ⟨Nat.le_refl _, hp.mp hh, fun j h1 h2 => by omega⟩
      · rename_i hh
        obtain ⟨a1, a2, a3⟩ := i1 k hk
        refine ⟨by omega, a2, fun j h1 h2 hs => ?_⟩
        rcases Nat.eq_or_lt_of_le h1 with rfl | h
        · exact hh (hp.mpr hs)
        · exact a3 j h h2 hs
    · intro hk j hj hs
      split at hk
      · cases hk
      · rename_i hh
        rcases Nat.eq_or_lt_of_le hj with rfl | h
        · exact hh (hp.mpr hs)
        · exact i2 hk j h hs

/-- **C114.** Searching forward finds the first place at or behind the cursor, and nothing only if there is none. -/
theorem search_forward (d : Doc) (p : Bytes) :
    (∀ k, (d.searchForward p).2 = some k → d.offset d.pos ≤ k ∧ Spec.StandsAt d.buf p k ∧
      ∀ j, d.offset d.pos ≤ j → j < k → ¬ Spec.StandsAt d.buf p j) ∧
    ((d.searchForward p).2 = none → (∀ j, d.offset d.pos ≤ j → ¬ Spec.StandsAt d.buf p j) ∧ (d.searchForward p).1 = d) := by
  have hi : ∀ r, indexOf d.buf p (d.offset d.pos) = r → (d.searchForward p).2 = r ∧ (r = none → (d.searchForward p).1 = d) := by
    intro r hr
    unfold Doc.searchForward
    rw [hr]
    cases r <;> simp
  obtain ⟨h1, h2⟩ := hi _ rfl
  rw [h1]
  unfold indexOf at h2 ⊢
  by_cases hb : d.buf.length < d.offset d.pos
  · rw [if_pos hb] at h2 ⊢
    refine ⟨fun k hk => (by cases hk), fun _ => ⟨fun j hj hs => ?_, h2 rfl⟩⟩
    have := ((stands_iff _ _ _).mp hs).1
    omega
  · rw [if_neg hb] at h2 ⊢
    obtain ⟨a, b⟩ := findFrom_spec p d.buf (d.offset d.pos) (by omega)
    exact ⟨a, fun h => ⟨b h, h2 h⟩⟩

theorem findBack_spec (b p : Bytes) (i : Nat) (hi : i ≤ b.length) :
    (∀ k, findBack b p i = some k → k ≤ i ∧ Spec.StandsAt b p k ∧ ∀ j, k < j → j ≤ i → ¬ Spec.StandsAt b p j) ∧
    (findBack b p i = none → ∀ j, j ≤ i → ¬ Spec.StandsAt b p j) := by
  induction i with
  | zero =>
    have hp : p.isPrefixOf b = true ↔ Spec.StandsAt b p 0 := by rw [stands_iff]; simp
    unfold findBack
    constructor
    · intro k hk
      split at hk
      · rename_i hh
        cases hk
        exact ⟨Nat.le_refl _, hp.mp hh, fun j h1 h2 => by omega⟩
      · cases hk
    · intro hk j hj hs
      split at hk
      · cases hk
      · rename_i hh
        have : j = 0 := by omega
        subst this
        exact hh (hp.mpr hs)
  | succ i ih =>
    have hp : p.isPrefixOf (b.drop (i + 1)) = true ↔ Spec.StandsAt b p (i + 1) := by rw [stands_iff]; simp [hi]
    obtain ⟨i1, i2⟩ := ih (by omega)
    unfold findBack
    constructor
    · intro k hk
      split at hk
      · rename_i hh
        cases hk
        exact ⟨Nat.le_refl _, hp.mp hh, fun j h1 h2 => by omega⟩
      · rename_i hh
        obtain ⟨a1, a2, a3⟩ := i1 k hk
        refine ⟨by omega, a2, fun j h1 h2 hs => ?_⟩
        rcases Nat.lt_or_ge i j with h | h
        · have : j = i + 1 := by omega
          subst this
          exact hh (hp.mpr hs)
        · exact a3 j h1 h hs
    · intro hk j hj hs
      split at hk
      · cases hk
      · rename_i hh
        rcases Nat.lt_or_ge i j with h | h
        · have : j = i + 1 := by omega
          subst this
          exact hh (hp.mpr hs)
        · exact i2 hk j h hs

/-- **C114.** Searching backward finds the last place before the cursor or the selection, and nothing only if there is none. Left
out: from the very beginning (`search_back_wraps`). -/
theorem search_backward_partial (d : Doc) (p : Bytes) (s : Nat) (hp : d.Placed) (hs : s = min (d.offset d.pos) (d.offset d.sel)) (h0 : 0 < s)
    (hb : s ≤ d.buf.length) :
    (∀ k, (d.searchBackward p).2 = some k → k < s ∧ Spec.StandsAt d.buf p k ∧ ∀ j, k < j → j < s → ¬ Spec.StandsAt d.buf p j) ∧
    ((d.searchBackward p).2 = none → ∀ j, j < s → ¬ Spec.StandsAt d.buf p j) := by
  have hst : (if d.hasSelection then d.offset d.selStart else d.offset d.pos) = s := by
    split
    · rw [(ends d hp).1, hs]
    · rename_i hh
      have : d.pos = d.sel := by
        unfold Doc.hasSelection at hh
        simpa using hh
      rw [hs, this]; omega
  have hi : (d.searchBackward p).2 = findBack d.buf p (s - 1) := by
    unfold Doc.searchBackward
    rw [hst]
    unfold lastIndexOf
    rw [if_neg (by omega), if_neg (by omega), show ((s : Int) - 1).toNat = s - 1 by omega]
    cases findBack d.buf p (s - 1) <;> rfl
  rw [hi]
  obtain ⟨a, b⟩ := findBack_spec d.buf p (s - 1) (by omega)
  refine ⟨fun k hk => ?_, fun hk j hj => b hk j (by omega)⟩
  obtain ⟨a1, a2, a3⟩ := a k hk
  exact ⟨by omega, a2, fun j h1 h2 => a3 j h1 (by omega)⟩

theorem mark_selected (d : Doc) (p : Bytes) (k : Nat) (hl : 2 ≤ p.length) (hs : Spec.StandsAt d.buf p k) (hf : k % d.width + 1 < d.width) :
    (d.mark k p.length).selectedBytes = p.take (d.width - k % d.width) ∧ (d.mark k p.length).Placed ∧ (d.mark k p.length).buf = d.buf := by
  have hdm := Nat.div_add_mod k d.width
  have hcol : k - k / d.width * d.width = k % d.width := by
    rw [Nat.mul_comm]; omega
  have hp : (d.mark k p.length).Placed := by
    unfold Doc.Placed Doc.mark
    dsimp only
    omega
  refine ⟨?_, hp, rfl⟩
  have hne : (d.mark k p.length).pos ≠ (d.mark k p.length).sel := by
    unfold Doc.mark
    dsimp only
    intro e
    have := congrArg Pos.column e
    dsimp only at this
    omega
  rw [selected_bytes _ hp hne]
  have h1 : (d.mark k p.length).offset (d.mark k p.length).sel = k := by
    unfold Doc.mark Doc.offset
    dsimp only
    have := Nat.div_mul_le_self k d.width
    omega
  have h2 : (d.mark k p.length).offset (d.mark k p.length).pos = k + (min p.length (d.width - k % d.width) - 1) := by
    unfold Doc.mark Doc.offset
    dsimp only
    have := Nat.div_mul_le_self k d.width
    omega
  rw [h1, h2]
  unfold Spec.between
  obtain ⟨pre, post, he, rfl⟩ := hs
  rw [show min (pre.length + (min p.length (d.width - pre.length % d.width) - 1)) pre.length = pre.length by omega,
    show max (pre.length + (min p.length (d.width - pre.length % d.width) - 1)) pre.length - pre.length + 1 =
      min p.length (d.width - pre.length % d.width) by omega]
  show (d.buf.drop pre.length).take (min p.length (d.width - pre.length % d.width)) = _
  rw [he, List.append_assoc, List.drop_left, List.take_append_of_le_length (by omega)]
  rw [Nat.min_comm, ← List.take_take, List.take_length]

/-- **C114.** What is found, forward or backward, is selected as far as its line goes (all of it, if it does not cross the end of the
line), and no byte is changed. Left out: one byte, alone or at the end of a line, which is not selected. -/
theorem found_selected_partial (d : Doc) (p : Bytes) (k : Nat) (r : Doc × Option Nat) (hr : r = d.searchForward p ∨ r = d.searchBackward p)
    (h : r.2 = some k) (hl : 2 ≤ p.length) (hf : k % d.width + 1 < d.width) (hs : Spec.StandsAt d.buf p k) :
    r.1.selectedBytes = p.take (d.width - k % d.width) ∧ r.1.Placed ∧ r.1.buf = d.buf := by
  have hm : r.1 = d.mark k p.length := by
    rcases hr with rfl | rfl
    · unfold Doc.searchForward at h ⊢
      cases hi : indexOf d.buf p (d.offset d.pos) with
      | none => rw [hi] at h; cases h
      | some j => rw [hi] at h; cases h; rfl
    · unfold Doc.searchBackward at h ⊢
      generalize lastIndexOf d.buf p _ = o at h ⊢
      cases o with
      | none => cases h
      | some j => cases h; rfl
  rw [hm]
  exact mark_selected d p k hl hs hf

/-- The hypotheses are met: found from the cursor on, backward, and selected. -/
example : ((Doc.new [7, 1, 2, 3, 1, 2]).searchForward [1, 2]).2 = some 1 ∧ ((Doc.new [7, 1, 2, 3, 1, 2]).searchForward [9]).2 = none ∧
    ((⟨[7, 1, 2, 3, 1, 2], [], 0, ⟨0, 4, 1⟩, ⟨0, 4, 1⟩, 16, true⟩ : Doc).searchBackward [1, 2]).2 = some 1 ∧
    ((Doc.new [7, 1, 2, 3, 1, 2]).searchForward [1, 2]).1.selectedBytes = [1, 2] := by
  decide

/-! ## Findings -/

/-- **C114, counterexample in general.** Bytes written over the end of the value are not taken away when the edit is undone: what
stood behind the end stays. -/
theorem overwriting_the_end_not_undone (b data : Bytes) (off : Nat) (h1 : off ≤ b.length) (h2 : b.length < off + data.length) :
    (((Doc.new b).replace off data).undo).buf = b ++ data.drop (b.length - off) ∧
    (((Doc.new b).replace off data).undo).buf ≠ b := by
  have hd : data ≠ [] := by intro e; rw [e] at h2; simp at h2; omega
  have hrem : baRemove b off data.length = b.take off := by
    unfold baRemove
    by_cases he : off = b.length
    · rw [if_pos (by omega), he, List.take_length]
    · have : data.length ≠ 0 := by intro e; exact hd (List.eq_nil_of_length_eq_zero e)
      rw [if_neg (by omega)]
      simp only [Int.toNat_natCast]
      rw [List.drop_eq_nil_of_le (by omega), List.append_nil]
  have hrep : bufReplace b off data = b.take off ++ data := by
    unfold bufReplace
    rw [hrem, insert_in data (by simp [h1])]
    rw [List.take_take, Nat.min_self, List.drop_eq_nil_of_le (by simp; omega), List.append_nil]
  have hmid : baMid b off data.length = b.drop off := by
    rw [mid_in, List.take_of_length_le (by simp; omega)]
  have hu : (((Doc.new b).replace off data).undo).buf = bufReplace (b.take off ++ data) off (b.drop off) := by
    unfold Doc.replace Doc.push Doc.undo Doc.new
    dsimp only [Cmd.redo]
    simp only [List.take_nil, List.length_nil, List.nil_append, List.getElem?_cons_zero, Cmd.undo]
    rw [hrep, hmid]
  have hl : (b.drop off).length = b.length - off := by simp
  have hres : bufReplace (b.take off ++ data) off (b.drop off) = b ++ data.drop (b.length - off) := by
    have hs : b.take off ++ data = b.take off ++ data.take (b.length - off) ++ data.drop (b.length - off) := by
      rw [List.append_assoc, List.take_append_drop]
    rw [hs, replace_mid (b.take off) (data.take (b.length - off)) (data.drop (b.length - off)) (b.drop off) (by simp [h1]) (by simp; omega),
      List.take_append_drop]
  rw [hu, hres]
  refine ⟨rfl, fun e => ?_⟩
  have := congrArg List.length e
  simp at this
  omega

/-- **C114, counterexample.** Pasting over a selection made forward puts the bytes behind the place of the selection, and over the
end of the value spaces are put before them. -/
theorem pasting_misplaced :
    let d : Doc := ⟨[1, 2, 3, 4, 5, 6], [], 0, ⟨0, 2, 1⟩, ⟨0, 1, 1⟩, 16, true⟩
    let e : Doc := ⟨[1, 2, 3, 4], [], 0, ⟨0, 3, 1⟩, ⟨0, 0, 1⟩, 16, true⟩
    d.selectedBytes = [2, 3] ∧ (d.paste [9]).buf = [1, 4, 9, 5, 6] ∧ e.selectedBytes = [1, 2, 3, 4] ∧ (e.paste [9]).buf = [32, 32, 32, 9] := by
  decide

/-- **C114, counterexample in general.** A search for a single byte that has been found finds it again at the same place, however
often it is repeated. -/
theorem search_of_a_byte_stays (d : Doc) (x : UInt8) (k : Nat) (hw : 0 < d.width) (h : (d.searchForward [x]).2 = some k) :
    ((d.searchForward [x]).1.searchForward [x]) = ((d.searchForward [x]).1, some k) := by
  have hk := ((search_forward d [x]).1 k h).2.1
  have hm : (d.searchForward [x]).1 = d.mark k 1 := by
    unfold Doc.searchForward at h ⊢
    cases hi : indexOf d.buf [x] (d.offset d.pos) with
    | none => rw [hi] at h; cases h
    | some j => rw [hi] at h; cases h; rfl
  have hdm := Nat.div_add_mod k d.width
  have hcol : k - k / d.width * d.width = k % d.width := by
    rw [Nat.mul_comm]; omega
  have hlt := Nat.mod_lt k hw
  have hle := Nat.div_mul_le_self k d.width
  have ho : (d.mark k 1).offset (d.mark k 1).pos = k := by
    unfold Doc.mark Doc.offset
    dsimp only
    omega
  have hi : indexOf (d.mark k 1).buf [x] k = some k := by
    show indexOf d.buf [x] k = some k
    unfold indexOf
    have hst := (stands_iff _ _ _).mp hk
    rw [if_neg (by omega)]
    cases hd : d.buf.drop k with
    | nil => rw [hd] at hst; simp at hst
    | cons c r => rw [hd] at hst; unfold findFrom; rw [if_pos hst.2]
  rw [hm]
  unfold Doc.searchForward
  rw [ho, hi]
  dsimp only
  congr 1

/-- **C114, counterexample.** Searching backward from the beginning finds the last place behind it. -/
theorem search_back_wraps : ((Doc.new [1, 2, 1, 2]).searchBackward [1, 2]).2 = some 2 := by decide

end Verif.View.Hex
