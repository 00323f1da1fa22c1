import Verif.Blob.Model
import Verif.Blob.Spec
import Verif.Object.FreeLemmas
import Mathlib.Data.List.Perm.Basic
import Mathlib.Data.List.Nodup

/-! # Lemmas: files of 256-byte blocks -/

namespace Verif.Blob
open Verif Object

def Full (A : List Bytes) : Prop := ∀ p ∈ A, p.length = 256

theorem flatten_length {A : List Bytes} (h : Full A) : A.flatten.length = 256 * A.length := by
  induction A with
  | nil => rfl
  | cons a A ih =>
    rw [List.flatten_cons, List.length_append, h a (by simp), ih (fun p hp => h p (by simp [hp])), List.length_cons]
    omega

theorem flatten_take {A : List Bytes} (h : Full A) (k : Nat) : A.flatten.take (256 * k) = (A.take k).flatten := by
  induction A generalizing k with
  | nil => simp
  | cons a A ih =>
    cases k with
    | zero => simp
    | succ k =>
      have ha := h a (by simp)
      rw [List.flatten_cons, List.take_append, List.take_of_length_le (by omega), ha,
        show 256 * (k + 1) - 256 = 256 * k by omega, ih (fun p hp => h p (by simp [hp]))]
      simp

theorem flatten_drop {A : List Bytes} (h : Full A) (k : Nat) : A.flatten.drop (256 * k) = (A.drop k).flatten := by
  induction A generalizing k with
  | nil => simp
  | cons a A ih =>
    cases k with
    | zero => simp
    | succ k =>
      have ha := h a (by simp)
      rw [List.flatten_cons, List.drop_append, List.drop_of_length_le (by omega), ha,
        show 256 * (k + 1) - 256 = 256 * k by omega, ih (fun p hp => h p (by simp [hp]))]
      simp

theorem split_at {A : List Bytes} {x : Nat} {p : Bytes} (hx : A[x]? = some p) : A = A.take x ++ p :: A.drop (x + 1) := by
  have hlt := getElem?_some_lt hx
  rw [List.getElem?_eq_getElem hlt] at hx
  cases hx
  rw [← List.drop_eq_getElem_cons hlt, List.take_append_drop]

/-- Reading inside one block. -/
theorem get_block {A : List Bytes} (h : Full A) {x : Nat} {p : Bytes} (hx : A[x]? = some p) (off n : Nat) (hn : off + n ≤ 256) :
    getData A.flatten (256 * x + off) n = .ok ((p.drop off).take n) := by
  have hlt := getElem?_some_lt hx
  have hp := h p (List.mem_of_getElem? hx)
  unfold getData
  rw [if_pos (by rw [flatten_length h]; omega), ← List.drop_drop, flatten_drop h]
  have : A.drop x = p :: A.drop (x + 1) := by
    rw [List.getElem?_eq_getElem hlt] at hx
    cases hx
    exact List.drop_eq_getElem_cons hlt
  rw [this, List.flatten_cons, List.drop_append, List.take_append]
  rw [show n - (p.drop off).length = 0 by rw [List.length_drop]; omega]
  simp

/-- Storing inside one block. -/
theorem set_block {A : List Bytes} (h : Full A) {x : Nat} {p : Bytes} (hx : A[x]? = some p) (off : Nat) (b : Bytes)
    (hn : off + b.length ≤ 256) : setData A.flatten (256 * x + off) b = (A.set x (splice p off b)).flatten := by
  have hlt := getElem?_some_lt hx
  have hp := h p (List.mem_of_getElem? hx)
  unfold setData
  rw [show 256 * x + off - A.flatten.length = 0 by rw [flatten_length h]; omega]
  have h1 : (A.take x).flatten.length = 256 * x := by
    rw [flatten_length (fun q hq => h q (List.mem_of_mem_take hq)), List.length_take]; congr 1; omega
  have hset : A.set x (splice p off b) = A.take x ++ splice p off b :: A.drop (x + 1) := by
    rw [List.set_eq_take_append_cons_drop, if_pos hlt]
  have hA := split_at hx
  rw [hset]
  conv => lhs; rw [hA]
  simp only [List.flatten_append, List.flatten_cons, List.replicate_zero, List.append_nil]
  generalize (A.take x).flatten = T at *
  generalize (A.drop (x + 1)).flatten = D at *
  rw [List.take_append, List.take_of_length_le (by omega), h1, show 256 * x + off - 256 * x = off by omega,
    List.take_append, show off - p.length = 0 by omega]
  rw [List.drop_append, List.drop_of_length_le (by omega), h1,
    show 256 * x + off + b.length - 256 * x = off + b.length by omega, List.drop_append,
    show off + b.length - p.length = 0 by omega]
  simp [splice]

theorem shl8_of {x : Nat} (h : x < 2 ^ 24) : shl8 x = 256 * x := by
  unfold shl8
  omega

theorem splice3 (p z w r : Bytes) (hz : z.length = 4) (hw : w.length = 2) (hp : p.length ≤ 6 + r.length) :
    splice (splice (splice p 0 z) 4 w) 6 r = z ++ w ++ r := by
  have h1 : splice p 0 z = z ++ p.drop 4 := by simp [splice, hz]
  have h2 : splice (z ++ p.drop 4) 4 w = z ++ w ++ p.drop 6 := by
    unfold splice
    rw [List.take_left' hz, hw, ← hz, ← List.drop_drop, List.drop_left, List.drop_drop]
    simp [hz]
  have h3 : (z ++ w).length = 6 := by simp [hz, hw]
  rw [h1, h2]
  unfold splice
  rw [List.take_left' h3, ← h3, ← List.drop_drop, List.drop_left, List.drop_drop, h3, List.drop_of_length_le (by omega)]
  simp

theorem setData_end (F : Bytes) (n : Nat) (b : Bytes) (h : n = F.length) : setData F n b = F ++ b := by
  unfold setData
  rw [h, Nat.sub_self, List.take_length, List.drop_of_length_le (by omega)]
  simp

/-- The three stores into one block. -/
theorem putBlock_ok {A : List Bytes} (h : Full A) {cur : Nat} (hc : cur ≤ A.length) (h24 : cur < 2 ^ 24) (n : Nat) (r : Bytes)
    (hr : r.length = 250) :
    putBlock A.flatten cur n r =
      (if cur < A.length then A.set cur (le32 0 ++ le16 n ++ r) else A ++ [le32 0 ++ le16 n ++ r]).flatten := by
  unfold putBlock
  simp only
  rw [shl8_of h24]
  have hz : (le32 0).length = 4 := rfl
  have hz2 : (le16 n).length = 2 := rfl
  generalize le32 0 = z at *
  generalize le16 n = w at *
  split
  · next hlt =>
    obtain ⟨p, hp⟩ : ∃ p, A[cur]? = some p := ⟨_, List.getElem?_eq_getElem hlt⟩
    have hpl := h p (List.mem_of_getElem? hp)
    have s1 := set_block h hp 0 z (by omega)
    rw [Nat.add_zero] at s1
    rw [s1]
    have e1 : (splice p 0 z).length = 256 := by rw [length_splice _ _ _ (by omega)]; exact hpl
    have f1 : Full (A.set cur (splice p 0 z)) := set_lengths A 256 cur _ h e1
    rw [set_block f1 (get_set_eq _ _ _ hlt) 4 w (by omega), List.set_set]
    have e2 : (splice (splice p 0 z) 4 w).length = 256 := by rw [length_splice _ _ _ (by omega)]; exact e1
    have f2 : Full (A.set cur (splice (splice p 0 z) 4 w)) := set_lengths A 256 cur _ h e2
    rw [set_block f2 (get_set_eq _ _ _ hlt) 6 r (by omega), List.set_set]
    rw [splice3 p z w r hz hz2 (by omega)]
  · next hge =>
    have hcn : cur = A.length := by omega
    have hl := flatten_length h
    rw [hcn, ← hl]
    simp only [List.flatten_append, List.flatten_cons, List.flatten_nil, List.append_nil]
    generalize A.flatten = F at *
    rw [setData_end F F.length z rfl, setData_end (F ++ z) (F.length + 4) w (by rw [List.length_append]; omega),
      setData_end (F ++ z ++ w) (F.length + 6) r (by rw [List.length_append, List.length_append]; omega)]
    simp only [List.append_assoc]

end Verif.Blob
