import Verif.Depot.PackSpec
import Verif.Hex.Theorems

/-! # Theorems about packed and loose objects (property C54) -/

namespace Verif.Depot.PackTheorems
open Verif Verif.Hex Verif.Depot Verif.Depot.Spec

theorem leNat_bytesLE (k n : Nat) (h : n < 256 ^ k) (rest : Bytes) : leNat ((bytesLE k n ++ rest).take k) = n := by
  induction k generalizing n with
  | zero => simp at h; simp [leNat, h]
  | succ k ih =>
    simp only [bytesLE, List.cons_append, List.take_succ_cons, leNat]
    rw [ih (n / 256) (Nat.div_lt_of_lt_mul (by rw [Nat.pow_succ] at h; omega))]
    simp only [UInt8.toNat_ofNat']
    omega

theorem length_bytesLE (k n : Nat) : (bytesLE k n).length = k := by
  induction k generalizing n with
  | zero => rfl
  | succ k ih => simp [bytesLE, ih]

theorem length_entries (es : List (Bytes × Nat)) (h : ∀ e ∈ es, e.1.length = 20) :
    (es.flatMap (fun e => e.1 ++ bytesLE 8 e.2)).length = es.length * 28 := by
  induction es with
  | nil => rfl
  | cons e es ih =>
    rw [List.flatMap_cons, List.length_append, ih (fun x hx => h x (List.mem_cons_of_mem _ hx)), List.length_append,
      length_bytesLE, h e (by simp), List.length_cons]
    omega

theorem int64_nat (n : Nat) (h : n < 2 ^ 63) : int64 n = n := by rw [int64, if_pos h]

theorem packEntries_spec (es : List (Bytes × Nat)) (h : ∀ e ∈ es, e.1.length = 20 ∧ e.2 < 2 ^ 63) :
    packEntries es.length (es.flatMap (fun e => e.1 ++ bytesLE 8 e.2)) = es.map (fun e => (e.1, (e.2 : Int))) := by
  induction es with
  | nil => rfl
  | cons e es ih =>
    obtain ⟨h1, h2⟩ := h e (by simp)
    simp only [List.length_cons, packEntries, List.flatMap_cons, List.map_cons]
    rw [List.append_assoc, List.take_left' h1, List.drop_left' h1, leNat_bytesLE 8 e.2 (by omega), int64_nat _ h2,
      ← List.append_assoc, List.drop_left' (by rw [List.length_append, length_bytesLE, h1]),
      ih (fun x hx => h x (List.mem_cons_of_mem _ hx))]

/-- The index of a pack is read back as it was written. -/
theorem index_roundtrip (header : Bytes) (es : List (Bytes × Nat)) (pck : Bytes) (hh : header.length = 8)
    (hn : es.length < 2 ^ 32) (h : ∀ e ∈ es, e.1.length = 20 ∧ e.2 < 2 ^ 63) :
    ∃ p, openPack (indexFile header es) pck = .ok p ∧ p.file = pck ∧ p.index = es.map (fun e => (e.1, (e.2 : Int))) := by
  refine ⟨⟨es.map (fun e => (e.1, (e.2 : Int))), pck⟩, ?_, rfl, rfl⟩
  have hlen : (indexFile header es).length = 12 + es.length * 28 := by
    unfold indexFile
    rw [List.length_append, List.length_append, length_bytesLE, length_entries es (fun e he => (h e he).1), hh]
  have hc : leNat (((indexFile header es).drop 8).take 4) = es.length := by
    unfold indexFile
    rw [List.append_assoc, List.drop_left' hh, leNat_bytesLE 4 es.length (by omega)]
  have hd : (indexFile header es).drop 12 = es.flatMap (fun e => e.1 ++ bytesLE 8 e.2) := by
    unfold indexFile
    exact List.drop_left' (by rw [List.length_append, length_bytesLE, hh])
  rw [openPack, readPackIndex, if_neg (by omega), if_neg (by omega)]
  simp only [hc, hd]
  rw [← length_entries es (fun e he => (h e he).1), List.take_length, padTo, Nat.sub_self, List.replicate_zero,
    List.append_nil, packEntries_spec es h]
  rfl

theorem packData_holds (pck : Bytes) (off : Nat) (data : Bytes) (hd : data ≠ []) (hl : data.length < 2 ^ 63)
    (h : Holds pck off data) : packData pck off = .ok data := by
  obtain ⟨before, after, rfl, hoff⟩ := h
  rw [packData, if_neg (by simp; omega)]
  have hneg : ¬ ((off : Int) < 0) := by omega
  simp only [if_neg hneg, Int.toNat_natCast]
  have h1 : (before ++ bytesLE 8 data.length ++ data ++ after).drop off = bytesLE 8 data.length ++ (data ++ after) := by
    rw [List.append_assoc, List.append_assoc, List.drop_left' hoff]
  have hlen : ((bytesLE 8 data.length ++ (data ++ after)).take 8).length = 8 := by
    rw [List.take_left' (length_bytesLE ..), length_bytesLE]
  rw [h1]
  simp only [padTo, hlen, Nat.sub_self, List.replicate_zero, List.append_nil]
  rw [leNat_bytesLE 8 data.length (by omega), int64_nat _ hl]
  have hpos : 0 < data.length := List.length_pos_iff.2 hd
  have hne : ((data.length : Int)) ≠ 0 := by omega
  have hnn : ¬ ((data.length : Int) < 0) := by omega
  unfold copyOut
  simp only [if_neg hne, if_neg hnn, Int.toNat_natCast]
  have h2 : (before ++ bytesLE 8 data.length ++ data ++ after).drop (off + 8) = data ++ after := by
    rw [List.append_assoc]
    exact List.drop_left' (by rw [List.length_append, length_bytesLE, hoff])
  rw [h2, List.take_left' rfl, if_neg (by simpa using hd)]

theorem packLoop_only (file hash data : Bytes) (hd : data ≠ []) (hl : data.length < 2 ^ 63) (es : List (Bytes × Int))
    (ho : ∀ e ∈ es, e.1 = hash → ∃ off : Nat, e.2 = off ∧ Holds file off data) (acc : Option Bytes) :
    packLoop file hash es acc = .ok (if (∃ e ∈ es, e.1 = hash) then some data else acc) := by
  induction es generalizing acc with
  | nil => simp [packLoop]
  | cons e es ih =>
    obtain ⟨h, off⟩ := e
    rw [packLoop]
    by_cases he : hash = h
    · rw [if_pos he]
      obtain ⟨o, h1, h2⟩ := ho (h, off) (by simp) he.symm
      simp only at h1
      rw [h1, packData_holds file o data hd hl h2, Outcome.ok_bind, ih (fun x hx => ho x (List.mem_cons_of_mem _ hx)),
        if_pos (show ∃ e ∈ (h, (o : Int)) :: es, e.1 = hash from ⟨(h, o), by simp, he.symm⟩)]
      split <;> rfl
    · rw [if_neg he, ih (fun x hx => ho x (List.mem_cons_of_mem _ hx))]
      have : (∃ e ∈ es, e.1 = hash) ↔ (∃ e ∈ (h, off) :: es, e.1 = hash) := by
        constructor
        · rintro ⟨e, he', h'⟩; exact ⟨e, List.mem_cons_of_mem _ he', h'⟩
        · rintro ⟨e, he', h'⟩
          rcases List.mem_cons.1 he' with rfl | he'
          · exact absurd h'.symm he
          · exact ⟨e, he', h'⟩
      simp only [this]

theorem searchPacks_only (hash data : Bytes) (hd : data ≠ []) (hl : data.length < 2 ^ 63) (packs : List Pack)
    (ho : ∀ p ∈ packs, Only p hash data) :
    searchPacks hash packs = .ok (if (∃ p ∈ packs, Contains p hash) then some data else none) := by
  induction packs with
  | nil => simp [searchPacks]
  | cons p ps ih =>
    rw [searchPacks, packLoop_only p.file hash data hd hl p.index (ho p (by simp)), Outcome.ok_bind]
    by_cases hp : ∃ e ∈ p.index, e.1 = hash
    · rw [if_pos hp, if_pos ⟨p, by simp, hp⟩]
    · rw [if_neg hp]
      simp only
      rw [ih (fun x hx => ho x (List.mem_cons_of_mem _ hx))]
      have : (∃ q ∈ ps, Contains q hash) ↔ (∃ q ∈ p :: ps, Contains q hash) := by
        constructor
        · rintro ⟨q, hq, h⟩; exact ⟨q, List.mem_cons_of_mem _ hq, h⟩
        · rintro ⟨q, hq, h⟩
          rcases List.mem_cons.1 hq with rfl | hq
          · exact absurd h hp
          · exact ⟨q, hq, h⟩
      simp only [this]

theorem hexstring_getD (bs : Bytes) (i : Nat) (hi : i < bs.length) :
    (fromHexDigit ((hexstring bs).getD (i * 2) '\x00') <<< (4 : UInt8)) |||
      fromHexDigit ((hexstring bs).getD (i * 2 + 1) '\x00') = bs.getD i 0 := by
  induction bs generalizing i with
  | nil => simp at hi
  | cons b bs ih =>
    cases i with
    | zero =>
      simp only [hexstring, hexByte, List.cons_append, List.nil_append, Nat.zero_mul, List.getD_cons_zero, Nat.zero_add,
        List.getD_cons_succ]
      exact hexByte_back b
    | succ i =>
      have h2 : (i + 1) * 2 = i * 2 + 1 + 1 := by omega
      simp only [hexstring, hexByte, List.cons_append, List.nil_append, h2, List.getD_cons_succ]
      exact ih i (by simp at hi; omega)

theorem range_getD (h : Bytes) : (List.range h.length).map (fun i => h.getD i 0) = h := by
  refine List.ext_getElem (by simp) (fun i h1 h2 => ?_)
  simp only [List.getElem_map, List.getElem_range]
  rw [List.getD_eq_getElem?_getD, List.getElem?_eq_getElem h2]
  rfl

theorem binaryHash_hexstring (h : Bytes) (hl : h.length = 20) : binaryHash (hexstring h) = .ok h := by
  rw [binaryHash, if_neg (by rw [hexstring_length]; omega)]
  congr 1
  rw [show (20 : Nat) = h.length from hl.symm]
  conv => rhs; rw [← range_getD h]
  refine List.map_congr_left (fun i hi => ?_)
  exact hexstring_getD h i (List.mem_range.1 hi)

/-- An object whose hash is in a pack is served from a pack, whatever the order of the packs, if the packs
agree about its data and that is not empty; an object in no pack is served from the file named after its
hash, and is otherwise reported missing. -/
theorem lookup_partial (packs : List Pack) (files : Str × Str → Option Bytes) (hash data : Bytes) (hl : hash.length = 20)
    (hd : data ≠ []) (hn : data.length < 2 ^ 63) (ho : ∀ p ∈ packs, Only p hash data) :
    ((∃ p ∈ packs, Contains p hash) → getData packs files (hexstring hash) = .ok (some data)) ∧
    ((∀ p ∈ packs, ¬ Contains p hash) →
      ∃ a b : Str, hexstring hash = a ++ b ∧ a.length = 2 ∧ getData packs files (hexstring hash) = .ok (files (a, b))) := by
  constructor
  · intro hc
    rw [getData, binaryHash_hexstring hash hl, Outcome.ok_bind, searchPacks_only hash data hd hn packs ho, if_pos hc]
    rfl
  · intro hc
    refine ⟨(hexstring hash).take 2, (hexstring hash).drop 2, (List.take_append_drop ..).symm, ?_, ?_⟩
    · rw [List.length_take, hexstring_length]; omega
    · rw [getData, binaryHash_hexstring hash hl, Outcome.ok_bind, searchPacks_only hash data hd hn packs ho,
        if_neg (fun ⟨p, hp, h⟩ => hc p hp h)]
      rfl

def h1 : Bytes := List.replicate 19 1 ++ [2]
def h2 : Bytes := List.replicate 19 1 ++ [3]

def samplePack : Pack := ⟨[(h1, 2), (h2, 12)], [9, 9] ++ bytesLE 8 2 ++ [5, 6] ++ bytesLE 8 1 ++ [7] ++ [9]⟩

example : Contains samplePack h1 ∧ Only samplePack h1 [5, 6] := by
  refine ⟨⟨(h1, 2), by simp [samplePack], rfl⟩, ?_⟩
  intro e he hh
  simp only [samplePack, List.mem_cons, List.not_mem_nil, or_false] at he
  rcases he with rfl | rfl
  · exact ⟨2, rfl, [9, 9], bytesLE 8 1 ++ [7] ++ [9], rfl, rfl⟩
  · exact absurd hh (by decide)

example : getData [samplePack] (fun _ => none) (hexstring h2) = .ok (some [7]) := by decide +kernel
example : getData [samplePack] (fun p => if p.1 = ['0', '1'] then some [8] else none)
    (hexstring (List.replicate 20 1)) = .ok (some [8]) := by decide +kernel

/-- An empty object in a pack is served as the whole pack file. -/
theorem empty_object_wrong (pck : Bytes) (off : Nat) (h : Holds pck off []) : packData pck off = .ok pck := by
  obtain ⟨before, after, hp, hoff⟩ := h
  have hle : off ≤ pck.length := by rw [hp, ← hoff]; simp
  rw [packData, if_neg (by omega)]
  have hneg : ¬ ((off : Int) < 0) := by omega
  simp only [if_neg hneg, Int.toNat_natCast]
  have h1 : pck.drop off = bytesLE 8 0 ++ after := by
    rw [hp]
    simp only [List.append_nil, List.length_nil]
    rw [List.append_assoc, List.drop_left' hoff]
  rw [h1, List.take_left' (length_bytesLE ..)]
  rfl

theorem empty_object_wrong_example : ∃ (p : Pack) (hash : Bytes), hash.length = 20 ∧ Contains p hash ∧ Only p hash [] ∧
    getData [p] (fun _ => none) (hexstring hash) ≠ .ok (some []) := by
  refine ⟨⟨[(h1, 0)], bytesLE 8 0⟩, h1, by decide, ⟨(h1, 0), by simp, rfl⟩, ?_, by decide +kernel⟩
  intro e he _
  rw [List.mem_singleton.1 he]
  exact ⟨0, rfl, [], [], rfl, rfl⟩

/-- A hash text that is too short is read past its end. -/
theorem short_hash_ub (packs : List Pack) (files : Str × Str → Option Bytes) (s : Str) (h : s.length < 39) :
    getData packs files s = .ub := by
  rw [getData, binaryHash, if_pos h]; rfl

/-! ## Data of a record -/

/-- The data exported for a record: what the blob holds, unpacked if asked for; without a blob, the object of
the record's hash; without either, the record is reported to have no data. -/
theorem store_partial (readBlob : Nat → Nat → Outcome Bytes) (inflate : Bytes → Bytes × Bool) (packs : List Pack)
    (files : Str × Str → Option Bytes) (unpack : Bool) (hash : Option Str) :
    (∀ s l raw, ¬ (s = 0 ∧ l = 0) → readBlob s l = .ok raw → (unpack = true → (inflate raw).2 = true) →
      storeData readBlob inflate packs files unpack (some (s, l)) hash = .ok (some (if unpack then (inflate raw).1 else raw))) ∧
    (∀ blob, (blob = none ∨ blob = some (0, 0)) →
      storeData readBlob inflate packs files unpack blob hash =
        match hash with
        | none => .ok none
        | some h => getData packs files h) := by
  constructor
  · intro s l raw h1 h2 h3
    simp only [storeData]
    rw [if_neg h1, h2, Outcome.ok_bind]
    cases unpack with
    | false => rfl
    | true => simp only [if_true, h3 rfl]
  · rintro blob (rfl | rfl)
    · rfl
    · simp only [storeData]; rfl

example : storeData (fun s l => .ok (List.replicate l (UInt8.ofNat s))) (fun b => (b.map (· + 1), true)) [] (fun _ => none) true
    (some (3, 2)) none = .ok (some [4, 4]) := by decide

/-- Packed data with an error in the middle is exported as the part unpacked so far followed by the packed
data. -/
theorem broken_data_mixed (readBlob : Nat → Nat → Outcome Bytes) (inflate : Bytes → Bytes × Bool) (packs : List Pack)
    (files : Str × Str → Option Bytes) (hash : Option Str) (s l : Nat) (raw part : Bytes) (h1 : ¬ (s = 0 ∧ l = 0))
    (h2 : readBlob s l = .ok raw) (h3 : inflate raw = (part, false)) :
    storeData readBlob inflate packs files true (some (s, l)) hash = .ok (some (part ++ raw)) := by
  simp only [storeData]
  rw [if_neg h1, h2, Outcome.ok_bind, h3]
  rfl

end Verif.Depot.PackTheorems
