import Verif.Tables.Spec
import Verif.Lost.Theorems
import Verif.Db.Theorems
import Verif.Object.DeleteTheorems
import Verif.Object.TransferLemmas

/-! # Helper lemmas: the list of tables -/

namespace Verif.Tables
open Verif Object Spec

theorem length_shiftDown {α : Type} : ∀ l : List α, (shiftDown l).length = l.length
  | [] => rfl
  | [_] => rfl
  | _ :: c :: r => by rw [shiftDown, List.length_cons, length_shiftDown (c :: r)]; rfl

theorem length_shiftOut {α : Type} [DecidableEq α] (bl : α) : ∀ l : List α, (shiftOut bl l).length = l.length
  | [] => rfl
  | b :: r => by
    rw [shiftOut]
    split
    · exact length_shiftDown _
    · rw [List.length_cons, length_shiftOut bl r, List.length_cons]

theorem dropLast_shiftDown {α : Type} : ∀ (l : List α), (shiftDown l).dropLast = l.tail
  | [] => rfl
  | [_] => rfl
  | _ :: c :: r => by
    have ih := dropLast_shiftDown (c :: r)
    have hne : shiftDown (c :: r) ≠ [] := by
      intro h
      have := length_shiftDown (c :: r)
      rw [h] at this
      cases this
    rw [shiftDown, List.dropLast_cons_of_ne_nil hne, ih]
    rfl

theorem shiftOut_mem {α : Type} [DecidableEq α] (bl : α) : ∀ l : List α, bl ∈ l → (shiftOut bl l).dropLast = l.erase bl
  | [], h => by cases h
  | b :: r, h => by
    rw [shiftOut]
    split
    · rename_i e
      subst e
      rw [dropLast_shiftDown, List.erase_cons_head]
      rfl
    · rename_i e
      have hr : bl ∈ r := by
        rcases List.mem_cons.1 h with h | h
        · exact absurd h.symm e
        · exact h
      have hne : shiftOut bl r ≠ [] := by
        intro h0
        have := length_shiftOut bl r
        rw [h0] at this
        have := List.length_pos_of_mem hr
        simp at *
        omega
      rw [List.dropLast_cons_of_ne_nil hne, shiftOut_mem bl r hr, List.erase_cons_tail (by simpa using e)]

theorem shiftOut_not_mem {α : Type} [DecidableEq α] (bl : α) : ∀ l : List α, bl ∉ l → shiftOut bl l = l
  | [], _ => rfl
  | b :: r, h => by
    simp only [List.mem_cons, not_or] at h
    rw [shiftOut, if_neg (fun e => h.1 e.symm), shiftOut_not_mem bl r h.2]

theorem length_words (l : List Nat) : (l.flatMap le32).length = 4 * l.length := by
  induction l with
  | nil => rfl
  | cons a l ih => rw [List.flatMap_cons, List.length_append, ih, List.length_cons, show (le32 a).length = 4 from rfl]; omega

theorem length_rootData (lang : Bytes) (bs : List Nat) : (rootData lang bs).length = lang.length + 4 + 4 * bs.length := by
  unfold rootData
  have := length_words bs
  rw [List.length_append, List.length_append, show bs.flatMap Db.Spec.le32 = bs.flatMap le32 from rfl, this]
  show lang.length + (4 + _) = _
  omega

theorem splice_mid (a b c d : Bytes) (h : b.length = d.length) (off : Nat) (ho : a.length = off) :
    splice (a ++ (b ++ c)) off d = a ++ (d ++ c) := by
  subst ho
  unfold splice
  rw [List.take_left, ← h, show a.length + b.length = (a ++ b).length by simp, ← List.append_assoc a b c, List.drop_left, List.append_assoc]

/-- Every byte list read as a root object. -/
theorem root_read (v : Db.Ver) (lang : Bytes) (bs : List Nat) (hl : lang.length = Db.langSize v) (hn : bs.length < 2 ^ 31)
    (hb : ∀ b ∈ bs, b < 2 ^ 32) (rest : Bytes) :
    rd32 (rootData lang bs ++ rest) (Db.langSize v) = .ok bs.length ∧
      Db.readBlocks (rootData lang bs ++ rest) (Db.langSize v + 4) bs.length = .ok bs := by
  constructor
  · have := Db.rd32_le32 lang (bs.flatMap Db.Spec.le32 ++ rest) bs.length (by omega) _ hl
    unfold rootData
    rw [List.append_assoc, List.append_assoc]
    exact this
  · have := Db.readBlocks_le32 (lang ++ Db.Spec.le32 bs.length) bs hb rest (Db.langSize v + 4) (by rw [List.length_append, hl]; rfl)
    unfold rootData
    rw [← List.append_assoc lang, List.append_assoc]
    exact this

theorem take_words : ∀ (l : List Nat) (k : Nat), (l.flatMap le32).take (4 * k) = (l.take k).flatMap le32
  | [], k => by simp
  | a :: l, 0 => by simp
  | a :: l, k + 1 => by
    rw [List.flatMap_cons, List.take_succ_cons, List.flatMap_cons, ← take_words l k, List.take_append]
    have h4 : (le32 a).length = 4 := rfl
    rw [List.take_of_length_le (by omega), h4, show 4 * (k + 1) - 4 = 4 * k by omega]

/-- Taking an entry off the list, at the level of the bytes. -/
theorem removeBlock_ok (v : Db.Ver) (lang : Bytes) (bs : List Nat) (hl : lang.length = Db.langSize v) (hn : bs.length < 2 ^ 31)
    (hb : ∀ b ∈ bs, b < 2 ^ 32) (hne : bs ≠ []) (bl : Nat) :
    ∃ d, removeBlock v (rootData lang bs) bl = .ok d ∧
      d.take ((rootData lang bs).length - 4) = rootData lang ((shiftOut bl bs).dropLast) := by
  obtain ⟨h1, h2⟩ := root_read v lang bs hl hn hb []
  rw [List.append_nil] at h1 h2
  have hpos : 0 < bs.length := List.length_pos_iff.mpr hne
  refine ⟨lang ++ (le32 (bs.length - 1) ++ (shiftOut bl bs).flatMap le32), ?_, ?_⟩
  · unfold removeBlock
    rw [h1]
    simp only [Outcome.ok_bind]
    rw [if_neg (by omega), if_neg (by omega), h2]
    simp only [Outcome.ok_bind]
    rw [show (bs.length + (2 ^ 32 - 1)) % 2 ^ 32 = bs.length - 1 by omega]
    have e1 : splice (rootData lang bs) (Db.langSize v) (le32 (bs.length - 1)) = lang ++ (le32 (bs.length - 1) ++ bs.flatMap le32) :=
      splice_mid lang (Db.Spec.le32 bs.length) (bs.flatMap Db.Spec.le32) (le32 (bs.length - 1)) rfl _ hl
    rw [e1]
    have e2 := splice_mid (lang ++ le32 (bs.length - 1)) (bs.flatMap le32) [] ((shiftOut bl bs).flatMap le32)
      (by rw [length_words, length_words, length_shiftOut]) (Db.langSize v + 4) (by rw [List.length_append, hl]; rfl)
    rw [List.append_nil, List.append_nil, List.append_assoc, List.append_assoc] at e2
    rw [e2]
  · have hdl : ((shiftOut bl bs).dropLast).length = bs.length - 1 := by rw [List.length_dropLast, length_shiftOut]
    have ht := take_words (shiftOut bl bs) (bs.length - 1)
    rw [length_rootData, List.take_append, List.take_of_length_le (by omega), List.take_append,
      List.take_of_length_le (by show 4 ≤ _; omega)]
    show lang ++ (le32 (bs.length - 1) ++ ((shiftOut bl bs).flatMap le32).take (_ - 4)) = _
    rw [show lang.length + 4 + 4 * bs.length - 4 - lang.length - 4 = 4 * (bs.length - 1) by omega, ht]
    unfold rootData
    rw [hdl, List.dropLast_eq_take, length_shiftOut]
    rfl

/-- Adding entries, at the level of the bytes. -/
theorem addBlocks_ok (v : Db.Ver) (junk : Nat → UInt8) (lang : Bytes) (bs ls : List Nat) (hl : lang.length = Db.langSize v)
    (hn : (bs ++ ls).length < 2 ^ 31) (hb : ∀ b ∈ bs, b < 2 ^ 32) :
    addBlocks v junk (rootData lang bs) ls = .ok (rootData lang (bs ++ ls)) := by
  rw [List.length_append] at hn
  have h1 := (root_read v lang bs hl (by omega) hb []).1
  rw [List.append_nil] at h1
  unfold addBlocks
  rw [h1]
  simp only [Outcome.ok_bind]
  have hjl : ((List.range (4 * ls.length)).map junk).length = 4 * ls.length := by simp
  generalize (List.range (4 * ls.length)).map junk = j at hjl
  rw [if_neg (by
    have := length_rootData lang bs
    rw [List.length_append, hjl, this]
    omega)]
  have hf : (lang ++ (Db.Spec.le32 bs.length ++ bs.flatMap Db.Spec.le32)).length = Db.langSize v + 4 + 4 * bs.length := by
    have := length_rootData lang bs
    unfold rootData at this
    rw [this, hl]
  have e1 : splice (rootData lang bs ++ j) (Db.langSize v + 4 + 4 * bs.length) (ls.flatMap le32) =
      rootData lang bs ++ ls.flatMap le32 := by
    have := splice_mid (rootData lang bs) j [] (ls.flatMap le32) (by rw [hjl, length_words]) _ hf
    rw [List.append_nil, List.append_nil] at this
    exact this
  rw [e1]
  have e2 := splice_mid lang (Db.Spec.le32 bs.length) (bs.flatMap Db.Spec.le32 ++ ls.flatMap le32) (le32 (bs.length + ls.length)) rfl _ hl
  have e3 : rootData lang bs ++ ls.flatMap le32 = lang ++ (Db.Spec.le32 bs.length ++ (bs.flatMap Db.Spec.le32 ++ ls.flatMap le32)) := by
    unfold rootData; rw [List.append_assoc, List.append_assoc]
  rw [e3, Nat.mod_eq_of_lt (by omega), e2]
  unfold rootData
  rw [List.flatMap_append, List.length_append]
  rfl

/-- A whole object read in memory. -/
theorem getPart_owned {e : Env} {s : St} {sp : FreeSpec.State} {o : Obj} {ps : List Nat} {bs : Bytes} (hr : Rep e s sp)
    (h : Transfer.Owned s sp o ps) (hl : o.len = bs.length) (hb : Object.Spec.Begins s.pages 4096 Object.Spec.file80 o.block bs)
    (hc : o.data = none ∨ o.data = some bs) (n : Nat) (hn : 0 < n) (hn2 : n ≤ bs.length) :
    getPart s.pages e.P o 0 n = .ok (bs.take n) := by
  obtain ⟨tabs, datas, rfl, ho, hw⟩ := h
  rcases hc with hc | hc
  · have hb1 : o.block ≠ 1 := (used_facts hr (hw _ (by simp))).2.2.1
    obtain ⟨o', a1, a2, a3, a4, a5, a6⟩ := opened_reopens s o tabs datas ho hb1 hr.full
    have hlen : (bs.take n).length = n := by rw [List.length_take]; omega
    have := read_range_80 s.pages 4096 o.block o' hb1 a1 0 (bs.take n) (by
        intro h0; rw [h0] at hlen; simp at hlen; omega) (by rw [hlen]; omega) (by
        intro i hi
        rw [hlen] at hi
        rw [Nat.zero_add, hb i (by omega), List.getElem_take, List.getElem?_eq_getElem])
    obtain ⟨_, _, _, _, _, _, _, d, _⟩ := init_80 _ _ _ _ hb1 a1
    rw [hlen] at this
    rw [← this, hr.P]
    unfold getPart
    have hdn : o'.data = none := by assumption
    rw [hc, hdn]
    simp only [ho.kind, a6, a2, a3]
  · unfold getPart
    rw [hc]
    simp only
    rw [if_pos (by omega), List.drop_zero]

end Verif.Tables
