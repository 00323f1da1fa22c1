import Verif.Value.StorageSpec
import Verif.Stream.Theorems
import Verif.Depot.PackTheorems

/-! # Theorems about unwrapping stored values (property C65) -/

namespace Verif.Value
open Verif Verif.Stream Verif.Depot Verif.Depot.Spec Verif.Depot.PackTheorems Verif.Value.Spec

/-- Copying a positive number of bytes from inside a stream to a new one. -/
theorem copyInt_new (src : Mem) (n : Nat) (hn : 0 < n) (p : Nat) (hp : src.pos = p) (hlt : p < src.data.length) :
    copyInt Mem.empty src n =
      .ok (min n (src.data.length - p), ⟨(src.data.drop p).take n, ((min n (src.data.length - p) : Nat) : Int)⟩,
        { src with pos := ((p + min n (src.data.length - p) : Nat) : Int) }) := by
  have h := copy_appends_partial Mem.empty src n hn rfl (by omega) (by omega)
  rw [copyFrom, if_neg (by omega)] at h
  rw [copyInt, if_neg (by omega), if_neg (by omega), Int.toNat_natCast, h]
  simp [Mem.empty, hp]

theorem copyInt_all (src : Mem) : copyInt Mem.empty src 0 =
    .ok (src.data.length, ⟨src.data, src.data.length⟩, { src with pos := src.data.length }) := by
  rw [copyInt, if_pos rfl, copy_zero_copies_all Mem.empty src rfl]
  simp [Mem.empty]

theorem setSize_zero (s : Mem) (h : 0 ≤ s.pos) : s.setSize 0 = .ok Mem.empty := by
  unfold Mem.setSize
  rw [if_neg (by omega)]
  simp only [Mem.empty, resizeB]
  congr 1
  by_cases hp : s.pos > 0
  · simp [if_pos hp]
  · simp [if_neg hp]; omega

theorem seek_begin (s : Mem) (o : Nat) (h : o ≤ s.data.length) : (s.seek o .begin).2 = { s with pos := o } := by
  simp only [Mem.seek]
  rw [if_neg (by omega)]

theorem seek_zero (s : Mem) : (s.seek 0 .begin).2 = { s with pos := 0 } := by
  have := seek_begin s 0 (Nat.zero_le _)
  simpa using this

theorem read_zero (data : Bytes) (n : Nat) : (Mem.mk data 0).read n = .ok (data.take n, ⟨data, ((min n data.length : Nat) : Int)⟩) := by
  rw [read_result _ n (by simp)]
  simp

theorem secondPart_fits (s : Mem) (hs : 0 ≤ s.pos) (mark content tail : Bytes) (hm : mark.length = 4) (hc : content ≠ [])
    (hl : content.length < 2 ^ 63) (p : Int) :
    ∃ q, secondPart s ⟨mark ++ bytesLE 8 content.length ++ content ++ tail, p⟩ = .ok ⟨content, q⟩ := by
  generalize hd : mark ++ bytesLE 8 content.length ++ content ++ tail = d
  have hlen : d.length = 12 + content.length + tail.length := by
    rw [← hd]; simp [length_bytesLE, hm]; omega
  have hpos : 0 < content.length := List.length_pos_iff.2 hc
  have ht : d.take 12 = mark ++ bytesLE 8 content.length := by
    rw [← hd, List.append_assoc _ content tail]
    exact List.take_left' (by simp [length_bytesLE, hm])
  unfold secondPart
  rw [seek_zero, read_zero]
  simp only [Outcome.ok_bind, ht]
  rw [if_neg (by simp [length_bytesLE, hm])]
  have hlen2 : readInt64 ((mark ++ bytesLE 8 content.length).drop 4) = content.length := by
    rw [List.drop_left' hm, readInt64]
    have := leNat_bytesLE 8 content.length (by omega) []
    rw [List.append_nil, List.take_of_length_le (by rw [length_bytesLE]; exact Nat.le_refl 8)] at this
    rw [this, int64_nat _ hl]
  rw [hlen2, if_pos (by omega), setSize_zero s hs]
  simp only [Outcome.ok_bind]
  rw [copyInt_new _ content.length hpos 12 (by simp; omega) (by simp; omega)]
  simp only [Outcome.ok_bind]
  have hcut : (d.drop 12).take content.length = content := by
    rw [← hd, List.append_assoc _ content tail, List.drop_left' (by simp [length_bytesLE, hm]), List.take_left' rfl]
  rw [hcut]
  exact ⟨_, rfl⟩

theorem unwrap_second (s : Mem) (hs : 0 ≤ s.pos) (head r : Bytes) (hrl : 0 < r.length) (hhl : head.length < 2 ^ 63) (p : Int) :
    ∃ s' q, 0 ≤ s'.pos ∧ s'.data = head ++ r ∧ unwrap s ⟨bytesLE 8 head.length ++ head ++ r, p⟩ = secondPart s' ⟨r, q⟩ := by
  have hsplit : bytesLE 8 head.length ++ head ++ r = bytesLE 8 head.length ++ (head ++ r) := by simp
  rw [hsplit]
  generalize hv : bytesLE 8 head.length ++ (head ++ r) = v
  have hvl : v.length = 8 + (head.length + r.length) := by rw [← hv]; simp [length_bytesLE]
  have ht : v.take 8 = bytesLE 8 head.length := by rw [← hv]; exact List.take_left' (length_bytesLE _ _)
  have hdr : v.drop 8 = head ++ r := by rw [← hv]; exact List.drop_left' (length_bytesLE _ _)
  unfold unwrap
  rw [seek_zero, read_zero]
  simp only [Outcome.ok_bind, ht]
  rw [if_neg (by simp [length_bytesLE]), setSize_zero s hs]
  simp only [Outcome.ok_bind]
  have hcnt : (v.length : Int) - 8 = ((head.length + r.length : Nat) : Int) := by omega
  rw [hcnt, copyInt_new _ (head.length + r.length) (by omega) 8 (by simp; omega) (by simp; omega)]
  simp only [Outcome.ok_bind, hdr]
  rw [List.take_of_length_le (by simp)]
  have hlen1 : readInt64 (bytesLE 8 head.length) = head.length := by
    have := leNat_bytesLE 8 head.length (by omega) []
    rw [List.append_nil, List.take_of_length_le (by rw [length_bytesLE]; exact Nat.le_refl 8)] at this
    rw [readInt64, this, int64_nat _ hhl]
  rw [hlen1, firstPart, if_pos (by simp; omega)]
  rw [seek_begin _ _ (by simp), setSize_zero _ (by simp; omega)]
  simp only [Outcome.ok_bind]
  have hcnt2 : (((head ++ r).length : Nat) : Int) - head.length = ((r.length : Nat) : Int) := by simp; omega
  rw [hcnt2, copyInt_new _ r.length (by omega) head.length rfl (by simp; omega)]
  simp only [Outcome.ok_bind]
  rw [List.drop_left' rfl, List.take_of_length_le (Nat.le_refl _)]
  refine ⟨_, _, ?_, ?_, rfl⟩
  · simp; omega
  · rfl

theorem secondPart_empty (s : Mem) (hs : 0 ≤ s.pos) (mark tail : Bytes) (hm : mark.length = 4) (p : Int) :
    ∃ q, secondPart s ⟨mark ++ bytesLE 8 0 ++ tail, p⟩ = .ok ⟨mark ++ bytesLE 8 0 ++ tail, q⟩ := by
  have hlen : (mark ++ bytesLE 8 0 ++ tail).length = 12 + tail.length := by simp [length_bytesLE, hm]; omega
  have ht : (mark ++ bytesLE 8 0 ++ tail).take 12 = mark ++ bytesLE 8 0 := List.take_left' (by simp [length_bytesLE, hm])
  unfold secondPart
  rw [seek_zero, read_zero]
  simp only [Outcome.ok_bind, ht]
  rw [if_neg (by simp [length_bytesLE, hm])]
  have hlen2 : readInt64 ((mark ++ bytesLE 8 0).drop 4) = 0 := by
    rw [List.drop_left' hm]; decide
  rw [hlen2, if_pos (by omega), setSize_zero s hs]
  simp only [Outcome.ok_bind]
  rw [copyInt_all]
  exact ⟨_, rfl⟩

theorem unwrap_value (s : Mem) (hs : 0 ≤ s.pos) (head mark content tail : Bytes) (hm : mark.length = 4) (hc : content ≠ [])
    (hhl : head.length < 2 ^ 63) (hl : content.length < 2 ^ 63) (p : Int) :
    ∃ q, unwrap s ⟨valueOf head mark content tail, p⟩ = .ok ⟨content, q⟩ := by
  have hsplit : valueOf head mark content tail =
      bytesLE 8 head.length ++ head ++ (mark ++ bytesLE 8 content.length ++ content ++ tail) := by simp [valueOf]
  obtain ⟨s', q, hq, _, e⟩ := unwrap_second s hs head (mark ++ bytesLE 8 content.length ++ content ++ tail)
    (by simp [hm]; omega) hhl p
  rw [hsplit, e]
  exact secondPart_fits s' hq mark content tail hm hc hl q

theorem export_opened (inflate : Bytes → Option Bytes) (b0 : UInt8) (rest : Bytes) (hb : b0 = 1 ∨ b0 = 2) :
    exportValue inflate (b0 :: 1 :: rest) =
      (do
        match ← openStorage inflate b0 ⟨b0 :: 1 :: rest, 2⟩ with
        | none => .ok (b0 :: 1 :: rest)
        | some s2 => do
          let s ← unwrap ⟨b0 :: 1 :: rest, ((b0 :: 1 :: rest).length : Int)⟩ s2
          .ok s.data) := by
  unfold exportValue
  rw [copy_zero_copies_all _ _ rfl]
  simp only [Outcome.ok_bind]
  rw [seek_zero, read_zero]
  simp only [Outcome.ok_bind, List.take_succ_cons, List.take_zero]
  rw [if_pos ⟨hb, trivial⟩]
  have : min 2 (b0 :: 1 :: rest).length = 2 := by simp
  simp only [this]
  simp [Mem.empty]
  rfl

/-- Both forms are opened. -/
theorem open_stored (inflate : Bytes → Option Bytes) (value blob : Bytes) (hv : value ≠ []) (h : StoredAs inflate value blob) :
    ∃ b0 rest, blob = b0 :: 1 :: rest ∧ (b0 = 1 ∨ b0 = 2) ∧ ∃ p, openStorage inflate b0 ⟨blob, 2⟩ = .ok (some ⟨value, p⟩) := by
  have hpos : 0 < value.length := List.length_pos_iff.2 hv
  cases h with
  | plain =>
    refine ⟨1, value, rfl, .inl rfl, ?_⟩
    have hc : ((([1, 1] ++ value : Bytes).length : Nat) : Int) - 2 = ((value.length : Nat) : Int) := by simp; omega
    unfold openStorage
    rw [if_pos rfl]
    simp only [hc]
    rw [copyInt_new _ value.length hpos 2 rfl (by simp; omega)]
    simp
  | packed z hz =>
    refine ⟨2, SIG_ZIP ++ z, rfl, .inr rfl, ?_⟩
    have hsig : SIG_ZIP.length = 16 := rfl
    unfold openStorage
    rw [if_neg (by decide), read_result _ 16 (by simp)]
    have hd : ([2, 1] ++ SIG_ZIP ++ z : Bytes).drop 2 = SIG_ZIP ++ z := rfl
    have hd18 : ([2, 1] ++ SIG_ZIP ++ z : Bytes).drop 18 = z := rfl
    have hlen : min 16 (([2, 1] ++ SIG_ZIP ++ z : Bytes).length - 2) = 16 := by simp [hsig]
    have hn : ((2 : Int) + ((16 : Nat) : Int)).toNat = 18 := by decide
    have hn2 : (2 : Int).toNat = 2 := rfl
    simp only [Outcome.ok_bind, hn2, hd, hlen, hn, hd18]
    rw [List.take_left' hsig, if_neg (by rw [hsig]; omega), if_neg (by simp), hz]
    exact ⟨_, rfl⟩

/-- The content of a stored value is what is exported, in both forms, for every header, content and what follows. Missing: the
empty content (see `empty_content_exports_all`), and blobs over 10 MiB (see `Verif.Value.large_keeps_blob`). -/
theorem export_content_partial (inflate : Bytes → Option Bytes) (head mark content tail blob : Bytes) (hm : mark.length = 4)
    (hc : content ≠ []) (hhl : head.length < 2 ^ 63) (hl : content.length < 2 ^ 63)
    (h : StoredAs inflate (valueOf head mark content tail) blob) : exportValue inflate blob = .ok content := by
  have hv : valueOf head mark content tail ≠ [] := by
    intro e
    have := congrArg List.length e
    simp [valueOf, length_bytesLE] at this
  obtain ⟨b0, rest, rfl, hb, p, ho⟩ := open_stored inflate _ blob hv h
  rw [export_opened inflate b0 rest hb, ho]
  simp only [Outcome.ok_bind]
  obtain ⟨q, hq⟩ := unwrap_value ⟨b0 :: 1 :: rest, ((b0 :: 1 :: rest).length : Int)⟩ (by simp; omega) head mark content tail hm hc hhl hl p
  rw [hq]
  rfl

example : exportValue (fun _ => none) ([1, 1] ++ valueOf [9, 9] [1, 2, 3, 4] [5, 6] [7]) = .ok [5, 6] :=
  export_content_partial _ [9, 9] [1, 2, 3, 4] [5, 6] [7] _ rfl (by decide) (by decide) (by decide) .plain

/-- **Finding.** When the content is empty, everything from the four bytes on is exported in its place. -/
theorem empty_content_exports_all (inflate : Bytes → Option Bytes) (head mark tail blob : Bytes) (hm : mark.length = 4)
    (hhl : head.length < 2 ^ 63) (h : StoredAs inflate (valueOf head mark [] tail) blob) :
    exportValue inflate blob = .ok (mark ++ bytesLE 8 0 ++ tail) := by
  have hsplit : valueOf head mark [] tail = bytesLE 8 head.length ++ head ++ (mark ++ bytesLE 8 0 ++ tail) := by simp [valueOf]
  have hv : valueOf head mark [] tail ≠ [] := by
    intro e
    have := congrArg List.length e
    simp [valueOf, length_bytesLE] at this
  obtain ⟨b0, rest, rfl, hb, p, ho⟩ := open_stored inflate _ blob hv h
  rw [export_opened inflate b0 rest hb, ho]
  simp only [Outcome.ok_bind]
  obtain ⟨s', q, hq, _, e⟩ := unwrap_second ⟨b0 :: 1 :: rest, ((b0 :: 1 :: rest).length : Int)⟩ (by simp; omega) head
    (mark ++ bytesLE 8 0 ++ tail) (by simp [hm]; omega) hhl p
  rw [hsplit, e]
  obtain ⟨q', e'⟩ := secondPart_empty s' hq mark tail hm q
  rw [e']
  rfl

example : exportValue (fun _ => none) ([1, 1] ++ valueOf [9, 9] [1, 2, 3, 4] [] [7]) = .ok ([1, 2, 3, 4] ++ bytesLE 8 0 ++ [7]) := by
  decide

/-- A blob that does not begin with the marks of a stored value is exported as it is. -/
theorem export_plain (inflate : Bytes → Option Bytes) (blob : Bytes)
    (h : ∀ b0 rest, blob = b0 :: 1 :: rest → b0 ≠ 1 ∧ b0 ≠ 2) : exportValue inflate blob = .ok blob := by
  unfold exportValue
  rw [copy_zero_copies_all _ _ rfl]
  simp only [Outcome.ok_bind]
  rw [seek_zero, read_zero]
  simp only [Outcome.ok_bind]
  match blob, h with
  | [], _ => rfl
  | [_], _ => rfl
  | b0 :: b1 :: rest, h =>
    simp only [List.take_succ_cons, List.take_zero]
    by_cases hb : b1 = 1
    · subst hb
      rw [if_neg (by have := h b0 rest rfl; rintro ⟨e | e, _⟩ <;> simp [e] at this)]
      simp [Mem.empty]
    · rw [if_neg (by rintro ⟨_, e⟩; exact hb e)]
      simp [Mem.empty]

/-- A packed value that cannot be unpacked is exported as it is. -/
theorem export_unpackable (inflate : Bytes → Option Bytes) (z : Bytes) (hz : inflate z = none) :
    exportValue inflate ([2, 1] ++ SIG_ZIP ++ z) = .ok ([2, 1] ++ SIG_ZIP ++ z) := by
  have he : ([2, 1] ++ SIG_ZIP ++ z : Bytes) = 2 :: 1 :: (SIG_ZIP ++ z) := rfl
  rw [he, export_opened inflate 2 _ (.inr rfl)]
  have hsig : SIG_ZIP.length = 16 := rfl
  unfold openStorage
  rw [if_neg (by decide), read_result _ 16 (by simp)]
  have hd : (2 :: 1 :: (SIG_ZIP ++ z) : Bytes).drop 2 = SIG_ZIP ++ z := rfl
  have hd18 : (2 :: 1 :: (SIG_ZIP ++ z) : Bytes).drop 18 = z := rfl
  have hlen : min 16 ((2 :: 1 :: (SIG_ZIP ++ z) : Bytes).length - 2) = 16 := by simp [hsig]
  have hn : ((2 : Int) + ((16 : Nat) : Int)).toNat = 18 := by decide
  have hn2 : (2 : Int).toNat = 2 := rfl
  simp only [Outcome.ok_bind, hn2, hd, hlen, hn, hd18]
  rw [List.take_left' hsig, if_neg (by rw [hsig]; omega), if_neg (by simp), hz]
  rfl

/-- A value whose length says that there is nothing after the header: the header is exported. -/
theorem export_head_only (inflate : Bytes → Option Bytes) (head blob : Bytes) (hne : head ≠ []) (hhl : head.length < 2 ^ 63)
    (h : StoredAs inflate (bytesLE 8 head.length ++ head) blob) : exportValue inflate blob = .ok head := by
  have hpos : 0 < head.length := List.length_pos_iff.2 hne
  have hv : bytesLE 8 head.length ++ head ≠ [] := by simp [hne]
  obtain ⟨b0, rest, rfl, hb, p, ho⟩ := open_stored inflate _ blob hv h
  rw [export_opened inflate b0 rest hb, ho]
  simp only [Outcome.ok_bind]
  have hvl : (bytesLE 8 head.length ++ head).length = 8 + head.length := by simp [length_bytesLE]
  have hlen1 : readInt64 (bytesLE 8 head.length) = head.length := by
    have := leNat_bytesLE 8 head.length (by omega) []
    rw [List.append_nil, List.take_of_length_le (by rw [length_bytesLE]; exact Nat.le_refl 8)] at this
    rw [readInt64, this, int64_nat _ hhl]
  unfold unwrap
  rw [seek_zero, read_zero, List.take_left' (length_bytesLE _ _)]
  simp only [Outcome.ok_bind]
  rw [if_neg (by simp [length_bytesLE]), setSize_zero _ (by simp; omega)]
  simp only [Outcome.ok_bind]
  rw [show (((bytesLE 8 head.length ++ head).length : Nat) : Int) - 8 = ((head.length : Nat) : Int) by omega,
    copyInt_new _ head.length hpos 8 (by simp [hvl]) (by simp [hvl]; omega)]
  simp only [Outcome.ok_bind]
  rw [List.drop_left' (length_bytesLE _ _), List.take_of_length_le (Nat.le_refl _), hlen1, firstPart, if_neg (by simp)]
  rfl

/-- **Finding.** A negative length in the value is a negative position in the stream: undefined behaviour. -/
theorem negative_length_ub (inflate : Bytes → Option Bytes) (len rest blob : Bytes) (hl : len.length = 8) (hneg : readInt64 len < 0)
    (hr : rest ≠ []) (h : StoredAs inflate (len ++ rest) blob) : exportValue inflate blob = .ub := by
  have hpos : 0 < rest.length := List.length_pos_iff.2 hr
  obtain ⟨b0, r, rfl, hb, p, ho⟩ := open_stored inflate _ blob (by simp [hr]) h
  rw [export_opened inflate b0 r hb, ho]
  simp only [Outcome.ok_bind]
  unfold unwrap
  rw [seek_zero, read_zero, List.take_left' hl]
  simp only [Outcome.ok_bind]
  rw [if_neg (by omega), setSize_zero _ (by simp; omega)]
  simp only [Outcome.ok_bind]
  have hvl : (len ++ rest).length = 8 + rest.length := by simp [hl]
  rw [show (((len ++ rest).length : Nat) : Int) - 8 = ((rest.length : Nat) : Int) by omega,
    copyInt_new _ rest.length hpos 8 (by simp; omega) (by simp; omega)]
  simp only [Outcome.ok_bind]
  rw [List.drop_left' hl, List.take_of_length_le (Nat.le_refl _), firstPart, if_pos (by simp; omega)]
  have hseek : ((Mem.mk rest ((min rest.length ((len ++ rest).length - 8) : Nat) : Int)).seek (readInt64 len) .begin).2 =
      ⟨rest, readInt64 len⟩ := by
    simp only [Mem.seek]
    rw [if_neg (by simp; omega)]
  rw [hseek, setSize_zero _ (by simp; omega)]
  simp only [Outcome.ok_bind]
  rw [copyInt, if_neg (by omega), if_neg (by omega)]
  simp [copyCount, Mem.readVec, Mem.read, hneg]

example : readInt64 [0, 0, 0, 0, 0, 0, 0, 128] < 0 ∧
    exportValue (fun _ => none) ([1, 1] ++ ([0, 0, 0, 0, 0, 0, 0, 128] ++ [5])) = .ub := by decide

example : exportValue (fun _ => none) [3, 1, 7] = .ok [3, 1, 7] ∧
    exportValue (fun _ => none) ([2, 1] ++ SIG_ZIP ++ [9]) = .ok ([2, 1] ++ SIG_ZIP ++ [9]) ∧
    exportValue (fun z => some z.reverse) ([2, 1] ++ SIG_ZIP ++ (bytesLE 8 2 ++ [6, 7]).reverse) = .ok [6, 7] := by decide

end Verif.Value
