import Verif.Index.TreeSpec
import Verif.Index.DeleteTheorems

/-! # Lemmas: bytes of pages in the index file -/

namespace Verif.Index
open Verif Blob

theorem setData_length {f b : Bytes} {s : Nat} (h : s + b.length ≤ f.length) : (setData f s b).length = f.length := by
  unfold setData
  have : s - f.length = 0 := by omega
  rw [this, List.replicate_zero, List.append_nil]
  simp only [List.length_append, List.length_take, List.length_drop]
  omega

theorem setData_get {f b : Bytes} {s : Nat} (h : s + b.length ≤ f.length) (i : Nat) :
    (setData f s b)[i]? = if s ≤ i ∧ i < s + b.length then b[i - s]? else f[i]? := by
  unfold setData
  have : s - f.length = 0 := by omega
  rw [this, List.replicate_zero, List.append_nil]
  have hl : (f.take s).length = s := by rw [List.length_take]; omega
  by_cases h1 : i < s
  · rw [if_neg (by omega), List.getElem?_append_left (by rw [List.length_append, hl]; omega),
      List.getElem?_append_left (by omega), List.getElem?_take_of_lt h1]
  · by_cases h2 : i < s + b.length
    · rw [if_pos (by omega), List.getElem?_append_left (by rw [List.length_append, hl]; omega),
        List.getElem?_append_right (by omega), hl]
    · rw [if_neg (by omega), List.getElem?_append_right (by rw [List.length_append, hl]; omega),
        List.getElem?_drop, List.length_append, hl]
      congr 1
      omega

theorem bytesOf_get (ps : Nat) (f : Bytes) (no i : Nat) : (Spec.bytesOf ps f no)[i]? = if i < ps then f[no * ps + i]? else none := by
  unfold Spec.bytesOf
  rw [List.getElem?_take]
  split
  · rw [List.getElem?_drop]
  · rfl

theorem bytesOf_length {ps : Nat} {f : Bytes} {no : Nat} (h : (no + 1) * ps ≤ f.length) : (Spec.bytesOf ps f no).length = ps := by
  unfold Spec.bytesOf
  rw [List.length_take, List.length_drop]
  rw [Nat.add_mul] at h
  omega

theorem getData_page {ps : Nat} {f : Bytes} {no : Nat} (h : (no + 1) * ps ≤ f.length) :
    getData f (no * ps) ps = .ok (Spec.bytesOf ps f no) := by
  unfold getData
  rw [Nat.add_mul] at h
  rw [if_pos (by omega)]
  rfl

/-- Writing inside a page changes that page. -/
theorem bytesOf_set {ps : Nat} {f b : Bytes} {no o : Nat} (h : (no + 1) * ps ≤ f.length) (ho : o + b.length ≤ ps) :
    Spec.bytesOf ps (setData f (no * ps + o) b) no =
      (Spec.bytesOf ps f no).take o ++ (b ++ (Spec.bytesOf ps f no).drop (o + b.length)) := by
  have hl := bytesOf_length h
  rw [Nat.add_mul, Nat.one_mul] at h
  apply List.ext_getElem?
  intro i
  rw [bytesOf_get, setData_get (by omega)]
  have h1 : ((Spec.bytesOf ps f no).take o).length = o := by rw [List.length_take]; omega
  by_cases hi : i < o
  · rw [List.getElem?_append_left (by omega), List.getElem?_take_of_lt hi, bytesOf_get, if_pos (by omega), if_neg (by omega), if_pos (by omega)]
  · rw [List.getElem?_append_right (by omega), h1]
    by_cases hj : i < o + b.length
    · rw [List.getElem?_append_left (by omega), if_pos (by omega), if_pos (by omega)]
      congr 1
      omega
    · rw [List.getElem?_append_right (by omega), List.getElem?_drop, bytesOf_get]
      by_cases hk : i < ps
      · rw [if_pos hk, if_neg (by omega), if_pos (by omega)]
        congr 2
        omega
      · rw [if_neg hk, if_neg (by omega)]

/-- Writing a whole page. -/
theorem bytesOf_write {ps : Nat} {f b : Bytes} {no : Nat} (h : (no + 1) * ps ≤ f.length) (hb : b.length = ps) :
    Spec.bytesOf ps (setData f (no * ps) b) no = b := by
  have := bytesOf_set (o := 0) (b := b) h (by omega)
  rw [Nat.add_zero, Nat.zero_add, List.take_zero, List.nil_append, hb] at this
  rw [this, List.drop_eq_nil_of_le (by rw [bytesOf_length h]; exact Nat.le_refl _), List.append_nil]

theorem elsewhere_refl (c : Conf) (nos : List Nat) (f : Bytes) : Spec.Elsewhere c nos f f := ⟨rfl, fun _ _ _ => rfl⟩

theorem elsewhere_trans {c : Conf} {nos : List Nat} {f g h : Bytes} (h1 : Spec.Elsewhere c nos f g) (h2 : Spec.Elsewhere c nos g h) :
    Spec.Elsewhere c nos f h :=
  ⟨h2.1.trans h1.1, fun i h4 hn => (h2.2 i h4 hn).trans (h1.2 i h4 hn)⟩

theorem elsewhere_mono {c : Conf} {nos nos' : List Nat} {f g : Bytes} (h1 : Spec.Elsewhere c nos f g) (h : ∀ n ∈ nos, n ∈ nos') :
    Spec.Elsewhere c nos' f g :=
  ⟨h1.1, fun i h4 hn => h1.2 i h4 (fun hh => hn (h _ hh))⟩

theorem elsewhere_set {c : Conf} {f b : Bytes} {no o : Nat} (h : (no + 1) * c.P.pagesize ≤ f.length) (ho : o + b.length ≤ c.P.pagesize) :
    Spec.Elsewhere c [no] f (setData f (no * c.P.pagesize + o) b) := by
  rw [Nat.add_mul, Nat.one_mul] at h
  refine ⟨setData_length (by omega), ?_⟩
  intro i _ hn
  rw [setData_get (by omega), if_neg]
  rintro ⟨h1, h2⟩
  apply hn
  rw [List.mem_singleton]
  have hp : 0 < c.P.pagesize := by omega
  apply Nat.le_antisymm
  · apply Nat.le_of_lt_succ
    rw [Nat.div_lt_iff_lt_mul hp, Nat.succ_mul]
    omega
  · rw [Nat.le_div_iff_mul_le hp]
    omega

theorem elsewhere_head {c : Conf} {f b : Bytes} (nos : List Nat) (hb : b.length = 4) (h : 4 ≤ f.length) : Spec.Elsewhere c nos f (setData f 0 b) := by
  refine ⟨setData_length (by omega), ?_⟩
  intro i h4 _
  rw [setData_get (by omega), if_neg (by omega)]

/-- Pages elsewhere stay as they are. -/
theorem elsewhere_page {c : Conf} {nos : List Nat} {f g : Bytes} (hps : 4 ≤ c.P.pagesize) (h : Spec.Elsewhere c nos f g) {no : Nat} (h0 : 0 < no) (hn : no ∉ nos) :
    Spec.bytesOf c.P.pagesize g no = Spec.bytesOf c.P.pagesize f no := by
  apply List.ext_getElem?
  intro i
  rw [bytesOf_get, bytesOf_get]
  split
  · rename_i hi
    apply h.2
    · have : 1 * c.P.pagesize ≤ no * c.P.pagesize := Nat.mul_le_mul_right _ h0
      omega
    · rw [Nat.mul_comm, Nat.mul_add_div (by omega), Nat.div_eq_of_lt hi]
      exact hn
  · rfl

theorem peek_append {a b d : Bytes} {off n : Nat} (h1 : a.length = off) (h2 : b.length = n) : peek (a ++ (b ++ d)) off n = .ok b := by
  unfold peek
  rw [if_pos (by simp only [List.length_append]; omega), List.drop_left' h1, List.take_left' h2]

theorem poke_append {a b d b' : Bytes} {off : Nat} (h1 : a.length = off) (h2 : b.length = b'.length) :
    poke (a ++ (b ++ d)) off b' = .ok (a ++ (b' ++ d)) := by
  unfold poke
  rw [if_pos (by simp only [List.length_append]; omega), List.take_left' h1, List.append_assoc]
  congr 3
  rw [← h1, ← h2, ← List.append_assoc, ← List.length_append, List.drop_left' rfl]

/-- Bytes 4 to 11 replaced. -/
theorem relinked_length {p l : Bytes} (h : 12 ≤ p.length) (hl : l.length = 8) : (Spec.relinked p l).length = p.length := by
  unfold Spec.relinked
  simp only [List.length_append, List.length_take, List.length_drop]
  omega

theorem relinked_twice {p l l' : Bytes} (h : 12 ≤ p.length) (hl : l.length = 8) : Spec.relinked (Spec.relinked p l) l' = Spec.relinked p l' := by
  have h4 : (p.take 4).length = 4 := by rw [List.length_take]; omega
  unfold Spec.relinked
  congr 1
  · congr 1
    rw [List.append_assoc, List.take_left' h4]
  · rw [List.drop_left' (by rw [List.length_append, h4, hl])]

theorem relinked_self (p : Bytes) : Spec.relinked p ((p.drop 4).take 8) = p := by
  unfold Spec.relinked
  have : p.drop 12 = (p.drop 4).drop 8 := by rw [List.drop_drop]
  rw [this, List.append_assoc, List.take_append_drop, List.take_append_drop]

/-- Numbers in the page outside of the links. -/
theorem at_relinked {p l : Bytes} {off k n : Nat} (h : Spec.At p off k n) (hp : 12 ≤ p.length) (hl : l.length = 8) (ho : off + k ≤ 4 ∨ 12 ≤ off) :
    Spec.At (Spec.relinked p l) off k n := by
  obtain ⟨pre, post, h1, h2, h3⟩ := h
  rcases ho with ho | ho
  · refine ⟨pre, (p.take 4).drop (off + k) ++ l ++ p.drop 12, ?_, h2, h3⟩
    unfold Spec.relinked
    have : p.take 4 = pre ++ (le k n ++ (p.take 4).drop (off + k)) := by
      have e : (p.take 4).take (off + k) = pre ++ le k n := by
        rw [List.take_take, Nat.min_eq_left ho, h1, ← List.append_assoc, List.take_left' (by rw [List.length_append, h2, le_length])]
      have := List.take_append_drop (off + k) (p.take 4)
      rw [e, List.append_assoc] at this
      exact this.symm
    calc p.take 4 ++ l ++ p.drop 12 = (pre ++ (le k n ++ (p.take 4).drop (off + k))) ++ l ++ p.drop 12 := by rw [← this]
      _ = _ := by simp only [List.append_assoc]
  · have h4 : (p.take 4).length = 4 := by rw [List.length_take]; omega
    refine ⟨p.take 4 ++ l ++ pre.drop 12, post, ?_, ?_, h3⟩
    · unfold Spec.relinked
      have : p.drop 12 = pre.drop 12 ++ (le k n ++ post) := by
        rw [h1, List.drop_append_of_le_length (by omega)]
      rw [this]
      simp only [List.append_assoc]
    · simp only [List.length_append, List.length_drop, h4, hl]
      omega

/-- The links that were put in. -/
theorem at_links {p : Bytes} {a b : Nat} (hp : 12 ≤ p.length) (ha : a < 2 ^ 32) (hb : b < 2 ^ 32) :
    Spec.At (Spec.relinked p (le 4 a ++ le 4 b)) 4 4 a ∧ Spec.At (Spec.relinked p (le 4 a ++ le 4 b)) 8 4 b := by
  have h4 : (p.take 4).length = 4 := by rw [List.length_take]; omega
  constructor
  · refine ⟨p.take 4, le 4 b ++ p.drop 12, ?_, h4, ha⟩
    unfold Spec.relinked
    simp only [List.append_assoc]
  · refine ⟨p.take 4 ++ le 4 a, p.drop 12, ?_, by rw [List.length_append, h4, le_length], hb⟩
    unfold Spec.relinked
    simp only [List.append_assoc]

theorem ofLe_reverse_be (k n : Nat) (h : n < 256 ^ k) : ofLe ((le k n).reverse).reverse = n := by
  rw [List.reverse_reverse, ofLe_le, Nat.mod_eq_of_lt h]

end Verif.Index
