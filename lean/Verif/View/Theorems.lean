import Verif.View.Spec
import Verif.Links.ShapeTheorems
import Verif.Links.ParseTheorems

/-! # Property theorems: the view of a bracket text (C110) -/

namespace Verif.View
open Verif Tree Links Links.Spec Spec

theorem below_le {f : Forest} (w : WF f) {i j : Nat} (h : Below f i j) : i ≤ j := by
  induction h with
  | self => exact Nat.le_refl _
  | step h1 h2 _ ih => have := (w.par _ _ _ h1 h2).1; omega

theorem sub_ok {h : Heap} {f : Forest} (A : Agrees h f) {i : Nat} {e : Entry} (hi : f.node i = some e)
    (k fuel : Nat) (hf : k < fuel) : subnode fuel h i k = .ok (some e.kids[k]?) := by
  obtain ⟨c, c0, _, _, _, c4, _, c6⟩ := A.members i e hi
  unfold subnode
  rw [deref_ok c0]
  simp only [Outcome.ok_bind]
  rw [c6, c4]
  by_cases hk : e.kids.length ≤ k
  · rw [if_pos (by omega), List.getElem?_eq_none hk]
  · rw [if_neg (by omega), List.head?_eq_getElem?, walk_kids A hi k fuel 0 hf (by omega), Nat.zero_add]

theorem stands_inj {f : Forest} (w : WF f) {root : Nat} {x : Idx} {i : Nat} (s : Stands f root x i) :
    ∀ y, Stands f root y i → y = x := by
  intro y t
  cases s with
  | root =>
    cases t with
    | root => rfl
    | item h1 h2 h3 h4 h5 => have := below_le w h5; have := (w.par _ _ _ h1 h2).1; omega
  | item h1 h2 h3 h4 h5 =>
    cases t with
    | root => have := below_le w h5; have := (w.par _ _ _ h1 h2).1; omega
    | item g1 g2 g3 g4 g5 =>
      rw [h1] at g1; cases g1
      rw [h2] at g2; cases g2
      rw [h3] at g3; cases g3
      have hk := (List.getElem?_eq_some_iff.1 h4).1
      have := (List.getElem?_inj hk (w.nodup _ _ h3)).1 (h4.trans g4.symm)
      rw [this]

theorem stands_exists {f : Forest} (w : WF f) {root j : Nat} (b : Below f root j) : ∃ x, Stands f root x j := by
  cases b with
  | self => exact ⟨_, .root⟩
  | step h1 h2 h3 =>
    obtain ⟨_, e, h4, h5⟩ := w.par _ _ _ h1 h2
    obtain ⟨k, hk⟩ := List.getElem?_of_mem h5
    exact ⟨_, .item h1 h2 h4 hk h3⟩

theorem stands_below {f : Forest} {root : Nat} {x : Idx} {i : Nat} (s : Stands f root x i) : Below f root i := by
  cases s with
  | root => exact .self
  | item h1 h2 _ _ h5 => exact .step h1 h2 h5

theorem target_stands {f : Forest} {root : Nat} {x : Idx} {i : Nat} (s : Stands f root x i) : target root x = .ok i := by
  cases s with
  | root => rfl
  | item _ _ _ _ _ =>
    rename_i k _ _ _ _ _
    have : valid ⟨(k : Int), 0, some i⟩ = true := by simp [valid]
    simp [target, this]

theorem rows_stands {h : Heap} {f : Forest} (A : Agrees h f) {root : Nat} {x : Idx} {i : Nat} {e : Entry}
    (s : Stands f root x i) (hi : f.node i = some e) : rowCount h root x = .ok e.kids.length := by
  obtain ⟨c, c0, _, _, _, _, _, c6⟩ := A.members i e hi
  cases s with
  | root =>
    have : valid ⟨-1, -1, none⟩ = false := by decide
    simp [rowCount, this, deref_ok c0, c6]
  | item _ _ _ _ _ =>
    rename_i k _ _ _ _ _
    have : valid ⟨(k : Int), 0, some i⟩ = true := by simp [valid]
    simp [rowCount, this, item, deref_ok c0, c6]

theorem indexFrom_ok {h : Heap} {f : Forest} (A : Agrees h f) (w : WF f) {p : Nat} {e : Entry} (hp : f.node p = some e)
    {k child : Nat} (hk : e.kids[k]? = some child) (fuel : Nat) (hf : e.kids.length < fuel) :
    ∀ (n j : Nat), j ≤ k → k < n + j → indexFrom fuel h p child n j = .ok (some k) := by
  have hkl := (List.getElem?_eq_some_iff.1 hk).1
  intro n
  induction n with
  | zero => intro j h1 h2; omega
  | succ n ih =>
    intro j h1 h2
    obtain ⟨c, c0, _, _, _, _, _, c6⟩ := A.members p e hp
    unfold indexFrom
    rw [deref_ok c0]
    simp only [Outcome.ok_bind]
    rw [c6, if_pos (by omega), sub_ok A hp j fuel (by omega)]
    simp only [Outcome.ok_bind]
    rcases Nat.lt_or_ge j k with hj | hj
    · rw [if_neg, show ((j : Int) + 1) = ((j + 1 : Nat) : Int) by omega]
      · exact ih (j + 1) (by omega) (by omega)
      · intro hc
        have := (List.getElem?_inj (by omega) (w.nodup _ _ hp)).1 (hc.trans hk.symm)
        omega
    · have : j = k := by omega
      subst this
      rw [if_pos hk]

theorem faithful {h : Heap} {f : Forest} (I : Inv h f) (root fuel : Nat)
    (hf : ∀ i e, f.node i = some e → e.kids.length < fuel) : Faithful fuel h f root := by
  have A := I.agrees
  have w := I.wf
  refine ⟨fun x i e s hi => rows_stands A s hi, ?_, ?_, ?_, ?_, ?_⟩
  · intro x i e k c j s hi hc hk
    have hkl := (List.getElem?_eq_some_iff.1 hk).1
    have := hf i e hi
    unfold index hasIndex
    rw [if_neg (by omega), rows_stands A s hi]
    simp only [Outcome.ok_bind]
    rw [if_pos (by simp; exact ⟨hkl, by rcases hc with rfl | rfl <;> decide⟩), target_stands s]
    simp only [Outcome.ok_bind]
    rw [sub_ok A hi k fuel (by omega), hk]
    rfl
  · intro x i e r c s hi ho
    unfold index hasIndex
    by_cases hrc : r < 0 ∨ c < 0
    · rw [if_pos hrc]; rfl
    · rw [if_neg hrc, rows_stands A s hi]
      simp only [Outcome.ok_bind]
      rw [if_neg (by
        simp only [Bool.and_eq_true, decide_eq_true_eq]
        have hcc : columnCount = 2 := rfl
        rw [hcc]
        omega)]
      rfl
  · intro x i e k c j s hi hc hk
    have hkl := (List.getElem?_eq_some_iff.1 hk).1
    obtain ⟨ej, hj, hpj⟩ := w.kid i e j hi (List.mem_of_getElem? hk)
    obtain ⟨cj, j0, _, _, j3, _, _, _⟩ := A.members j ej hj
    have hv : valid ⟨(k : Int), c, some j⟩ = true := by
      rcases hc with rfl | rfl <;> simp [valid]
    unfold parent
    rw [if_pos hv]
    unfold item
    dsimp only
    rw [deref_ok j0]
    simp only [Outcome.ok_bind]
    rw [j3, hpj]
    simp only
    cases s with
    | root => rw [if_pos rfl]; rfl
    | item h1 h2 h3 h4 h5 =>
      rename_i e' p ep k'
      have hne : i ≠ root := by
        have := below_le w h5
        have := (w.par _ _ _ h1 h2).1
        omega
      rw [if_neg hne]
      obtain ⟨ci, i0, _, _, i3, _, _, _⟩ := A.members i e' h1
      rw [deref_ok i0]
      simp only [Outcome.ok_bind]
      rw [i3, h2]
      unfold indexOf
      have hpl := hf p ep h3
      have hkl' := (List.getElem?_eq_some_iff.1 h4).1
      have := indexFrom_ok A w h3 h4 fuel hpl fuel 0 (by omega) (by omega)
      rw [show ((0 : Nat) : Int) = 0 from rfl] at this
      dsimp only
      rw [this]
      rfl
  · intro k j
    unfold rowCount
    rw [if_pos (show (1 : Int) > 0 by decide)]
  · intro j b
    obtain ⟨x, hx⟩ := stands_exists w b
    exact ⟨x, hx, stands_inj w hx⟩

theorem nodup_bound : ∀ (n : Nat) (l : List Nat), l.Nodup → (∀ x ∈ l, x < n) → l.length ≤ n := by
  intro n
  induction n with
  | zero =>
    intro l _ h
    cases l with
    | nil => simp
    | cons a l => have := h a (by simp); omega
  | succ n ih =>
    intro l hl h
    have h1 := ih (l.erase n) (hl.erase n) (fun x hx => by
      have h2 := (hl.mem_erase_iff).1 hx
      have := h x h2.2
      have := h2.1
      omega)
    rw [List.length_erase] at h1
    split at h1 <;> omega

/-- Children have different numbers below the next fresh one, so there are no more than that. -/
theorem kids_bound {f : Forest} (w : WF f) : ∀ i e, f.node i = some e → e.kids.length < f.fresh + 1 := by
  intro i e hi
  have h1 := w.nodup i e hi
  have h2 : ∀ x ∈ e.kids, x < f.fresh := by
    intro x hx
    obtain ⟨ex, hex, _⟩ := w.kid i e x hi hx
    exact w.lt hex
  have := nodup_bound f.fresh e.kids h1 h2
  omega

/-- **C110.** After any history of creations, changes and deletions, the view of any node shows the tree below it. -/
theorem view_after_edits {os : List Op} {f : Forest} (s : Steps none_ os f) (root : Nat) :
    ∃ h, performAll empty os = .ok (some h) ∧ ∀ fuel, f.fresh < fuel → Faithful fuel h f root := by
  obtain ⟨h, h1, I⟩ := performAll_inv inv_empty s
  exact ⟨h, h1, fun fuel hf => faithful I root fuel fun i e hi => by have := kids_bound I.wf i e hi; omega⟩

/-- **C110.** The view of a text: if the text is one, its nodes stand for the tree of the text (C42) and the view shows
them. -/
theorem view_of_text (text : Str) :
    (parse empty text = .throw ∧ parseText text = .throw) ∨
    ∃ h f n, parse empty text = .ok (h, 0) ∧ parseText text = .ok n ∧ Shows f 0 n ∧
      ∀ fuel, f.fresh < fuel → Faithful fuel h f 0 := by
  rcases parse_alike inv_empty text with ⟨k1, k2⟩ | ⟨⟨h', r⟩, n, k1, k2, k3, f, k4, k5, k6, _⟩
  · exact .inl ⟨k1, k2⟩
  · simp only at k3
    subst k3
    exact .inr ⟨h', f, n, k1, k2, k5, fun fuel hf => faithful k4 _ fuel fun i e hi => by
      have := kids_bound k4.wf i e hi; omega⟩

/-- The concrete history of C104, its root and an index two levels down. -/
example : Stands someForest 0 ⟨0, 0, some 4⟩ 4 ∧ Stands someForest 0 ⟨2, 0, some 3⟩ 3 :=
  ⟨.item rfl rfl rfl rfl (.step rfl rfl .self), .item rfl rfl rfl rfl .self⟩
/-- A text and its view: the second row, its second child, and back. -/
example : (parse empty "{1,{2,3}}".toList).bind (fun r => (index 9 r.1 0 0 0 nowhere).bind fun a =>
    (index 9 r.1 0 1 0 (a.getD nowhere)).bind fun b => (index 9 r.1 0 1 1 (b.getD nowhere)).bind fun c =>
    (parent 9 r.1 0 (c.getD nowhere)).bind fun d => .ok (a, b, c, d)) =
    .ok (some ⟨0, 0, some 1⟩, some ⟨1, 0, some 3⟩, some ⟨1, 1, some 5⟩, some ⟨1, 0, some 3⟩) := by decide +kernel

/-! ## What is shown in the columns -/

/-- **C110.** After any history: the value column of a list shows the number of its elements, that of another node the text of
the node (C41), shortened where it is displayed and taken as base64 where binary data is asked for. -/
theorem value_shown {os : List Op} {f : Forest} (s : Steps none_ os f) (i : Nat) (e : Entry) (hi : f.node i = some e) (k : Nat) :
    ∃ h n F, performAll empty os = .ok (some h) ∧ Shows f i n ∧ ∀ fuel, F ≤ fuel →
      (e.type = .list → ∀ role, data fuel h ⟨k, 1, some i⟩ role =
        .ok (some (.text ("{Элементов: ".toList ++ (toString (e.kids.length : Int)).toList ++ ['}'])))) ∧
      (e.type ≠ .list → data fuel h ⟨k, 1, some i⟩ .tip = .ok (some (.text (Tree.out n []))) ∧
        data fuel h ⟨k, 1, some i⟩ .display = .ok (some (.text (trim (Tree.out n [])))) ∧
        data fuel h ⟨k, 1, some i⟩ .edit = .ok (some (if e.type = .binary ∨ e.type = .binary2 ∨ e.type = .binaryD
          then .bytes (unprefix (Tree.out n [])) else .text (Tree.out n [])))) := by
  obtain ⟨h, h1, I⟩ := performAll_inv inv_empty s
  obtain ⟨n, hn⟩ := shows_exist I.wf f.fresh i e hi (by have := I.wf.lt hi; omega)
  obtain ⟨F, hF⟩ := out_shows I hn
  obtain ⟨c, c0, c1, _, _, _, _, c6⟩ := I.link.cell i e hi
  have hv : valid ⟨(k : Int), 1, some i⟩ = true := by simp [valid]
  have hd : ∀ fuel role, data fuel h ⟨k, 1, some i⟩ role = dataColumn fuel h i role := by
    intro fuel role
    simp only [data, hv, Bool.not_true, Bool.false_eq_true, if_false, if_true]
  refine ⟨h, n, F, h1, hn, fun fuel hf => ⟨?_, ?_⟩⟩
  · intro ht role
    rw [hd]
    unfold dataColumn
    rw [deref_ok c0]
    simp only [Outcome.ok_bind]
    rw [if_pos (c1.trans ht), c6]
  · intro ht
    have hne : ¬ c.type = .list := by rw [c1]; exact ht
    refine ⟨?_, ?_, ?_⟩ <;>
    · rw [hd]
      unfold dataColumn
      rw [deref_ok c0]
      simp only [Outcome.ok_bind]
      rw [if_neg hne, hF fuel hf]
      simp only [Outcome.ok_bind, c1]
      cases e.type <;> simp [isBinary]

example : ∃ e, someForest.node 2 = some e ∧ e.type ≠ .list := ⟨_, rfl, by decide⟩

/-- **C110.** A displayed value has at most 40 characters. -/
theorem shown_short (t : Str) : (trim t).length ≤ 40 := by
  unfold trim
  dsimp only
  split
  · rename_i h
    rw [List.length_append, left, if_neg (by decide), List.length_take]
    have : ("...".toList).length = 3 := rfl
    have : ((40 : Int) - 3).toNat = 37 := rfl
    omega
  · omega

/-- **C110.** A value of one line is displayed as it is, or its first 37 characters and three dots. -/
theorem shown_line (t : Str) (h : '\n' ∉ t) :
    trim t = if t.length ≤ 40 then t else t.take 37 ++ ['.', '.', '.'] := by
  have hf : firstLine t = t := by
    unfold firstLine indexOfChar
    rw [if_neg h]
    rfl
  unfold trim
  dsimp only
  rw [hf]
  split
  · rw [if_neg (by omega)]; rfl
  · rw [if_pos (by omega)]

example : '\n' ∉ "abc".toList := by decide

theorem indexOfChar_first (a b : Str) (h : '\n' ∉ a) : indexOfChar (a ++ '\n' :: b) '\n' = a.length := by
  unfold indexOfChar
  rw [if_pos (by simp)]
  congr 2
  rw [List.takeWhile_append_of_pos]
  · simp
  · intro x hx
    simp only [decide_eq_true_eq]
    rintro rfl
    exact h hx

/-- **C110.** Of a text whose lines end in carriage return and line feed, the first line is displayed. -/
theorem shown_first_line (a b : Str) (h : '\n' ∉ a) (hl : a.length ≤ 40) : trim (a ++ '\r' :: '\n' :: b) = a := by
  have he : a ++ '\r' :: '\n' :: b = (a ++ ['\r']) ++ '\n' :: b := by simp
  have hn : '\n' ∉ a ++ ['\r'] := by
    intro hc
    rcases List.mem_append.1 hc with hc | hc
    · exact h hc
    · revert hc; decide
  have hf : firstLine (a ++ '\r' :: '\n' :: b) = a := by
    unfold firstLine
    dsimp only
    rw [he, indexOfChar_first _ _ hn, if_pos (by omega)]
    unfold left
    have hlen : (((a ++ ['\r']).length : Int) - 1).toNat = a.length := by simp
    rw [if_neg (by simp), hlen, List.append_assoc, List.take_left' rfl]
  unfold trim
  dsimp only
  rw [hf, if_neg (by omega)]

example : trim "ab\r\ncd".toList = "ab".toList := by decide

/-- **C110, finding.** If lines end in line feed alone, the last character of the first line is missing; if the first line
is empty, the whole text is displayed, line feeds included. -/
theorem shown_wrong_line (a b : Str) (h : '\n' ∉ a) (ha : a ≠ []) (hl : a.length ≤ 40) (hb : b.length < 40) :
    trim (a ++ '\n' :: b) = a.dropLast ∧ trim ('\n' :: b) = '\n' :: b := by
  have hpos : 0 < a.length := List.length_pos_iff.2 ha
  constructor
  · have hf : firstLine (a ++ '\n' :: b) = a.dropLast := by
      unfold firstLine
      dsimp only
      rw [indexOfChar_first _ _ h, if_pos (by omega)]
      unfold left
      have hlen : ((a.length : Int) - 1).toNat = a.length - 1 := by omega
      rw [if_neg (by omega), hlen, List.take_append_of_le_length (by omega), List.dropLast_eq_take]
    unfold trim
    dsimp only
    rw [hf, if_neg (by rw [List.length_dropLast]; omega)]
  · have hf : firstLine ('\n' :: b) = '\n' :: b := by
      unfold firstLine
      dsimp only
      have := indexOfChar_first [] b (by simp)
      simp only [List.nil_append, List.length_nil] at this
      rw [this, if_pos (by decide)]
      rfl
    unfold trim
    dsimp only
    rw [hf, if_neg (by simp; omega)]

example : trim "ab\ncd".toList = "a".toList := by decide

/-- **C110.** Binary data is taken without its prefix. -/
theorem bytes_without_prefix (x : Str) : unprefix ("#base64:".toList ++ x) = x ∧ unprefix ("#data:".toList ++ x) = x := by
  have e1 : "#base64:".toList ++ x = '#' :: 'b' :: 'a' :: 's' :: 'e' :: '6' :: '4' :: ':' :: x := rfl
  have e2 : "#data:".toList ++ x = '#' :: 'd' :: 'a' :: 't' :: 'a' :: ':' :: x := rfl
  have e3 : "#base64".toList = ['#', 'b', 'a', 's', 'e', '6', '4'] := rfl
  have e4 : "#data".toList = ['#', 'd', 'a', 't', 'a'] := rfl
  unfold unprefix
  rw [e1, e2, e3, e4]
  constructor
  · rw [if_pos ⟨':' :: x, rfl⟩, if_neg (by simp)]; rfl
  · rw [if_neg, if_pos ⟨':' :: x, rfl⟩, if_neg (by simp)]
    · rfl
    · rintro ⟨t, ht⟩
      have := (List.cons.inj (List.cons.inj ht).2).1
      revert this
      decide

end Verif.View
