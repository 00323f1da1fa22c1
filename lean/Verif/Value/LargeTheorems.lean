import Verif.Value.StorageTheorems

/-! # Stored values over 10 MiB (property C65) -/

namespace Verif.Value
open Verif Verif.Stream Verif.Depot Verif.Depot.Spec Verif.Depot.PackTheorems Verif.Value.Spec

theorem overlay_at_end (f buf : Bytes) : overlay f f.length buf = f ++ buf := by
  unfold overlay
  by_cases h : buf.isEmpty
  · rw [if_pos h, List.isEmpty_iff.1 h]; simp
  · rw [if_neg h, Nat.max_self, resizeB]
    simp

/-- A stream with this file that stands at its end. -/
abbrev atEnd (f : Bytes) (size : Nat) : FileS := ⟨f, f.length, size, false⟩

theorem write_atEnd (f : Bytes) (size : Nat) (hs : size ≤ f.length) (buf : Bytes) :
    ((atEnd f size).write buf).2 = atEnd (f ++ buf) (f ++ buf).length := by
  simp only [FileS.write, atEnd, overlay_at_end, Bool.false_eq_true, if_false, List.length_append]
  by_cases h : f.length + buf.length > size
  · simp [h]
  · simp [h]
    omega

theorem fcopyCount_atEnd (f : Bytes) (size : Nat) (hs : size ≤ f.length) (src : FileS) (n : Int) :
    ∃ x, (fcopyCount (atEnd f size) src n).1 = atEnd (f ++ x) (f ++ x).length :=
  ⟨_, write_atEnd f size hs _⟩

/-- Copying what follows position `p`. -/
theorem fcopy_rest (f : Bytes) (size : Nat) (hs : size ≤ f.length) (g : Bytes) (p : Nat) (fl : Bool) (hp : p < g.length) :
    fcopy (atEnd f size) ⟨g, p, g.length, fl⟩ ((g.length : Int) - p) =
      (atEnd (f ++ g.drop p) (f ++ g.drop p).length, atEnd g g.length) := by
  have hn : ((g.length : Int) - p) ≠ 0 := by omega
  have hn' : ¬ ((g.length : Int) - p) ≤ 0 := by omega
  have ht : ((g.length : Int) - p).toNat = g.length - p := by omega
  have hd : (g.drop p).take (g.length - p) = g.drop p := List.take_of_length_le (by simp)
  have he : (g.drop p).isEmpty = false := by
    rw [List.isEmpty_eq_false_iff]
    intro e
    have := congrArg List.length e
    simp at this
    omega
  rw [fcopy, if_neg hn]
  simp only [fcopyCount, hn', if_false, ht, FileS.read, hd, he, Bool.false_eq_true]
  rw [write_atEnd f size hs]
  congr 1
  simp only [atEnd, List.length_drop]
  congr 1
  · omega
  · simp

theorem out_atEnd (f : Bytes) (h : f ≠ []) : (fcopy FileS.new (atEnd f f.length) 0).1.file = f := by
  have hl : 0 < f.length := List.length_pos_iff.2 h
  have := fcopy_rest [] 0 (by simp) f 0 false hl
  have hnew : FileS.new = atEnd [] 0 := rfl
  rw [fcopy, if_pos rfl]
  have hz : f.length ≠ 0 := by omega
  simp only [ne_eq, hz, not_false_eq_true, if_true]
  rw [fcopy, if_neg (by omega)] at this
  rw [hnew]
  simp only [Int.ofNat_zero, Int.sub_zero, Int.natCast_zero, Int.cast_ofNat_Int] at this
  rw [this]
  simp

theorem secondLarge_atEnd (f : Bytes) (s2 : FileS) : ∃ x, secondLarge (atEnd f f.length) s2 = atEnd (f ++ x) (f ++ x).length := by
  have hsame : ∃ x, atEnd f f.length = atEnd (f ++ x) (f ++ x).length := ⟨[], by simp⟩
  unfold secondLarge
  simp only
  split
  · exact hsame
  · rename_i h12
    split
    · rename_i hle
      have hset : (atEnd f f.length).setSize 0 = atEnd f 0 := rfl
      rw [hset]
      simp only [fcopy]
      split
      · rw [if_pos (by rename_i h0; rw [h0] at hle; omega)]
        exact fcopyCount_atEnd f 0 (Nat.zero_le _) _ _
      · exact fcopyCount_atEnd f 0 (Nat.zero_le _) _ _
    · exact hsame

theorem open_large (inflate : Bytes → Option Bytes) (value blob : Bytes) (hv : value ≠ []) (h : StoredAs inflate value blob) :
    ∃ b0 rest, blob = b0 :: 1 :: rest ∧ (b0 = 1 ∨ b0 = 2) ∧
      openLarge inflate b0 ⟨blob, 2, blob.length, false⟩ = some (atEnd value value.length) := by
  have hpos : 0 < value.length := List.length_pos_iff.2 hv
  cases h with
  | plain =>
    refine ⟨1, value, rfl, .inl rfl, ?_⟩
    unfold openLarge
    rw [if_pos rfl]
    have hnew : FileS.new = atEnd [] 0 := rfl
    have := fcopy_rest [] 0 (by simp) ([1, 1] ++ value) 2 false (by simp; omega)
    simp only at this ⊢
    rw [hnew]
    have h2 : ((2 : Nat) : Int) = 2 := rfl
    rw [h2] at this
    rw [this]
    rfl
  | packed z hz =>
    refine ⟨2, SIG_ZIP ++ z, rfl, .inr rfl, ?_⟩
    have hsig : SIG_ZIP.length = 16 := rfl
    have hd : ([2, 1] ++ SIG_ZIP ++ z : Bytes).drop 2 = SIG_ZIP ++ z := rfl
    have hd18 : ([2, 1] ++ SIG_ZIP ++ z : Bytes).drop 18 = z := rfl
    have ht : (SIG_ZIP ++ z).take 16 = SIG_ZIP := List.take_left' hsig
    unfold openLarge
    rw [if_neg (by decide)]
    simp only [FileS.read, hd, ht, hsig, hd18]
    rw [if_neg (by omega), if_neg (by simp), hz]
    rfl

/-- **Finding, negation of C65 for large blobs.** For a value that is stored in a blob over 10 MiB the exported file
begins with the whole blob, and goes on: nothing is unwrapped. -/
theorem large_keeps_blob (inflate : Bytes → Option Bytes) (len rest blob : Bytes) (hl : len.length = 8) (hnn : 0 ≤ readInt64 len)
    (hr : rest ≠ []) (h : StoredAs inflate (len ++ rest) blob) :
    ∃ more, more ≠ [] ∧ exportLarge inflate blob = some (blob ++ more) := by
  have hpos : 0 < rest.length := List.length_pos_iff.2 hr
  obtain ⟨b0, r, hblob, hb, ho⟩ := open_large inflate _ blob (by simp [hr]) h
  have hbl : 2 ≤ blob.length := by rw [hblob]; simp
  have hbne : blob ≠ [] := by rw [hblob]; simp
  -- the first copy
  have hc : fcopy FileS.new ⟨blob, blob.length, blob.length, false⟩ 0 = (atEnd blob blob.length, atEnd blob blob.length) := by
    have hnew : FileS.new = atEnd [] 0 := rfl
    have := fcopy_rest [] 0 (by simp) blob 0 false (by omega)
    rw [fcopy, if_neg (by omega)] at this
    rw [hnew, fcopy, if_pos rfl]
    simp only
    rw [if_pos (by omega)]
    simp only [Int.ofNat_zero, Int.sub_zero, Int.natCast_zero, Int.cast_ofNat_Int] at this
    rw [this]
    simp
  have hread : (FileS.read { atEnd blob blob.length with pos := 0 } 2) = (blob.take 2, ⟨blob, 2, blob.length, false⟩) := by
    simp only [FileS.read, atEnd, List.drop_zero, List.length_take, Nat.min_eq_left hbl, Nat.zero_add]
    simp
  have ht2 : blob.take 2 = [b0, 1] := by rw [hblob]; rfl
  -- unwrapping
  have hun : ∃ more, more ≠ [] ∧ unwrapLarge (atEnd blob blob.length) (atEnd (len ++ rest) (len ++ rest).length) =
      some (atEnd (blob ++ more) (blob ++ more).length) := by
    unfold unwrapLarge
    have hrd : (FileS.read { atEnd (len ++ rest) (len ++ rest).length with pos := 0 } 8) =
        (len, ⟨len ++ rest, 8, (len ++ rest).length, false⟩) := by
      have : (len ++ rest).take 8 = len := List.take_left' hl
      simp only [FileS.read, atEnd, List.drop_zero, this, hl, Nat.zero_add]
      simp
    have hcp := fcopy_rest blob 0 (Nat.zero_le _) (len ++ rest) 8 false (by simp; omega)
    rw [List.drop_left' hl] at hcp
    have h8 : ((8 : Nat) : Int) = 8 := rfl
    rw [h8] at hcp
    have hset : (atEnd blob blob.length).setSize 0 = atEnd blob 0 := rfl
    simp only [hrd, hset, hcp]
    rw [if_neg (by omega)]
    split
    · rename_i hgt
      rw [if_neg (by omega)]
      generalize hk : (readInt64 len).toNat = k
      have hki : readInt64 len = (k : Int) := by omega
      rw [hki] at hgt ⊢
      have hcp2 := fcopy_rest (len ++ rest) 0 (Nat.zero_le _) (blob ++ rest) k false (by omega)
      have e1 : (atEnd (len ++ rest) (len ++ rest).length).setSize 0 = atEnd (len ++ rest) 0 := rfl
      have e2 : ({ atEnd (blob ++ rest) (blob ++ rest).length with pos := k } : FileS) =
        ⟨blob ++ rest, k, (blob ++ rest).length, false⟩ := rfl
      rw [e1, e2, hcp2]
      simp only
      obtain ⟨x, hx⟩ := secondLarge_atEnd (blob ++ rest) (atEnd (len ++ rest ++ List.drop k (blob ++ rest)) (len ++ rest ++ List.drop k (blob ++ rest)).length)
      refine ⟨rest ++ x, by simp [hr], ?_⟩
      rw [hx, List.append_assoc]
    · exact ⟨rest, hr, rfl⟩
  obtain ⟨more, hm, hu⟩ := hun
  refine ⟨more, hm, ?_⟩
  unfold exportLarge
  simp only [hc, hread, ht2]
  rw [if_pos ⟨hb, trivial⟩, ho]
  simp only
  rw [hu, Option.map_some, out_atEnd _ (by simp [hbne])]

example : exportLarge (fun _ => none) ([1, 1] ++ valueOf [9, 9] [1, 2, 3, 4] [5, 6] [7]) =
    some (([1, 1] ++ valueOf [9, 9] [1, 2, 3, 4] [5, 6] [7]) ++ (valueOf [9, 9] [1, 2, 3, 4] [5, 6] [7]).drop 8) := by decide

end Verif.Value
