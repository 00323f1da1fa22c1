import Verif.Value.Users
import Verif.Value.UsersSpec

/-! # Theorems about masked user data (property C56) -/

namespace Verif.Value
open Verif Verif.Value.Spec

theorem masked_twice (key data : Bytes) : masked key (masked key data) = data := by
  apply List.ext_getElem?
  intro i
  simp only [masked, List.getElem?_mapIdx, Option.map_map]
  cases data[i]? with
  | none => rfl
  | some b => simp [UInt8.xor_assoc]

/-- The loop does to the data what `masked` does. -/
theorem xorLoop_masked (b0 : UInt8) (key : Bytes) (hk : key ≠ []) (todo : Nat) (done rest : Bytes) (k : Nat)
    (hlen : rest.length = todo) (hki : (if k ≥ key.length then 0 else k) = done.length % key.length) :
    xorLoop 1 (1 + key.length) key.length todo done.length k (b0 :: key ++ done ++ rest) =
      .ok (b0 :: key ++ done ++ rest.mapIdx (fun j b => b ^^^ key.getD ((done.length + j) % key.length) 0)) := by
  induction todo generalizing done rest k with
  | zero =>
    rw [List.length_eq_zero_iff] at hlen
    subst hlen
    rfl
  | succ todo ih =>
    cases rest with
    | nil => simp at hlen
    | cons r rest =>
      have hkl : 0 < key.length := List.length_pos_iff.2 hk
      have hmod : done.length % key.length < key.length := Nat.mod_lt _ hkl
      have e1 : (b0 :: key ++ done ++ r :: rest)[1 + key.length + done.length]? = some r := by
        rw [show b0 :: key ++ done ++ r :: rest = (b0 :: key ++ done) ++ (r :: rest) by simp,
          List.getElem?_append_right (by simp; omega)]
        simp [show 1 + key.length + done.length - (key.length + done.length + 1) = 0 by omega]
      have e2 : (b0 :: key ++ done ++ r :: rest)[1 + done.length % key.length]? = some (key.getD (done.length % key.length) 0) := by
        rw [Nat.add_comm, show b0 :: key ++ done ++ r :: rest = b0 :: (key ++ (done ++ r :: rest)) by simp, List.getElem?_cons_succ,
          List.getElem?_append_left hmod]
        simp [List.getD_eq_getElem?_getD, hmod]
      have e3 : (b0 :: key ++ done ++ r :: rest).set (1 + key.length + done.length)
          (r ^^^ key.getD (done.length % key.length) 0) =
          b0 :: key ++ (done ++ [r ^^^ key.getD (done.length % key.length) 0]) ++ rest := by
        rw [show b0 :: key ++ done ++ r :: rest = (b0 :: key ++ done) ++ (r :: rest) by simp,
          List.set_append_right _ _ (by simp; omega)]
        simp [show 1 + key.length + done.length - (key.length + done.length + 1) = 0 by omega]
      rw [xorLoop, hki]
      simp only [e1, e2, e3]
      have hd : done.length + 1 = (done ++ [r ^^^ key.getD (done.length % key.length) 0]).length := by simp
      rw [hd, ih _ rest _ (by simpa using hlen)]
      · simp only [List.length_append, List.length_cons, List.length_nil, List.mapIdx_cons, Nat.add_zero]
        simp [Nat.add_assoc, Nat.add_comm 1]
      · simp only [List.length_append, List.length_cons, List.length_nil, Nat.zero_add]
        rw [Nat.add_mod]
        by_cases h1 : done.length % key.length + 1 ≥ key.length
        · rw [if_pos h1]
          have : done.length % key.length + 1 = key.length := by omega
          by_cases hone : key.length = 1
          · rw [hone]; omega
          · rw [Nat.mod_eq_of_lt (a := 1) (by omega), this, Nat.mod_self]
        · rw [if_neg h1, Nat.mod_eq_of_lt (a := 1) (by omega), Nat.mod_eq_of_lt (a := done.length % key.length + 1) (by omega)]

/-- Unmasking inverts masking for every key of 1 to 127 bytes and every content. (The full property ranges over keys of 0 to
255 bytes; see `long_key_ub` and `empty_key_zeroes`.) -/
theorem unmask_partial (key data : Bytes) (hk : key ≠ []) (hkl : key.length < 128) :
    unmask (userRecord key data) = .ok data := by
  have hn : (UInt8.ofNat key.length).toNat = key.length := by
    simp [UInt8.toNat_ofNat']; omega
  have hlen : (masked key data).length = data.length := by simp [masked]
  have hloop := xorLoop_masked (UInt8.ofNat key.length) key hk data.length [] (masked key data) 0 hlen
    (by simp)
  have hm : (masked key data).mapIdx (fun j b => b ^^^ key.getD (((([] : Bytes).length) + j) % key.length) 0) = data := by
    have := masked_twice key data
    simpa [masked] using this
  rw [hm] at hloop
  simp only [List.append_nil, List.length_nil] at hloop
  unfold unmask userRecord
  simp only [List.cons_append, hn]
  rw [if_neg (by omega)]
  have hbl : (UInt8.ofNat key.length :: (key ++ masked key data)).length = key.length + data.length + 1 := by simp [hlen]
  rw [hbl, if_neg (by omega), show key.length + data.length + 1 - key.length - 1 = data.length by omega]
  rw [List.cons_append] at hloop
  rw [hloop]
  simp only [List.cons_append]
  congr 1
  rw [Nat.add_comm]
  simp

example : unmask (userRecord [7, 9] [1, 2, 3]) = .ok [1, 2, 3] := unmask_partial _ _ (by decide) (by decide)

/-- A record with a key of 128 or more bytes leads to undefined behaviour. -/
theorem long_key_ub (key data : Bytes) (h1 : 128 ≤ key.length) (h2 : key.length < 256) : unmask (userRecord key data) = .ub := by
  unfold unmask userRecord
  simp only [List.cons_append]
  rw [if_pos (by simp [UInt8.toNat_ofNat']; omega)]

/-- So does a record cut inside its key. -/
theorem cut_key_ub (n : UInt8) (key : Bytes) (h : key.length < n.toNat) : unmask (n :: key) = .ub := by
  unfold unmask
  simp only
  by_cases h1 : n.toNat ≥ 128
  · rw [if_pos h1]
  · rw [if_neg h1, if_pos (by simp; omega)]

example : (200 : Nat) < 256 ∧ ([1] : Bytes).length < (2 : UInt8).toNat := by decide

theorem xorLoop_zero (todo i k : Nat) (bb : Bytes) (hb : bb[1]? = some 0) (hl : 1 + i + todo ≤ bb.length) :
    xorLoop 1 1 0 todo i k bb = .ok bb := by
  induction todo generalizing i k with
  | zero => rfl
  | succ todo ih =>
    have hlt : 1 + i < bb.length := by omega
    rw [xorLoop]
    simp only [ge_iff_le, Nat.zero_le, if_true, Nat.add_zero, hb, List.getElem?_eq_getElem hlt, UInt8.xor_zero]
    rw [List.set_getElem_self]
    exact ih (i + 1) _ (by omega)

/-- With an empty key the first byte of the data is lost: it becomes zero. -/
theorem empty_key_zeroes (b : UInt8) (data : Bytes) : unmask (userRecord [] (b :: data)) = .ok (0 :: data) := by
  have hm : masked [] (b :: data) = b :: data := by
    apply List.ext_getElem?
    intro i
    simp only [masked, List.getElem?_mapIdx]
    cases (b :: data)[i]? <;> simp
  unfold unmask userRecord
  rw [hm]
  simp only [List.length_nil, List.cons_append, List.nil_append]
  rw [if_neg (by decide)]
  have h0 : (UInt8.ofNat 0).toNat = 0 := by decide
  simp only [h0]
  rw [if_neg (by simp)]
  have hl : xorLoop 1 (1 + 0) 0 ((UInt8.ofNat 0 :: b :: data).length - 0 - 1) 0 0 (UInt8.ofNat 0 :: b :: data) =
      .ok (UInt8.ofNat 0 :: 0 :: data) := by
    have : (UInt8.ofNat 0 :: b :: data).length - 0 - 1 = data.length + 1 := by simp
    rw [this, xorLoop]
    simp only [ge_iff_le, Nat.le_refl, if_true, Nat.add_zero, List.getElem?_cons_succ, List.getElem?_cons_zero, UInt8.xor_self,
      List.set_cons_succ, List.set_cons_zero, Nat.zero_add]
    exact xorLoop_zero data.length 1 1 _ rfl (by simp; omega)
  rw [hl]
  rfl

/-- Exactly the rows named in the property's documentation are unmasked. -/
theorem users_rows (same : Str → Str → Bool) (table first : Str) :
    isUsers same table first = true ↔
      (same table "PARAMS".toList = true ∧ same first "users.usr".toList = true) ∨
      (same table "PARAMS".toList = false ∧ same table "V8USERS".toList = true) := by
  unfold isUsers
  cases h : same table "PARAMS".toList <;> simp

end Verif.Value
