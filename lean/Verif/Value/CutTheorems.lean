import Verif.Value.LargeTheorems

/-! # Property theorems: stored values and packs that are cut short (C54, C65) -/

namespace Verif.Value
open Verif Verif.Stream Verif.Depot Verif.Depot.Spec Verif.Depot.PackTheorems Verif.Value.Spec

/-- A value whose content has the length `n`, of which only `content` is there. -/
def cutValue (head mark : Bytes) (n : Nat) (content : Bytes) : Bytes :=
  bytesLE 8 head.length ++ head ++ mark ++ bytesLE 8 n ++ content

theorem secondPart_cut (s : Mem) (mark content : Bytes) (n : Nat) (hm : mark.length = 4) (hn : content.length < n)
    (hl : n < 2 ^ 63) (p : Int) : secondPart s ⟨mark ++ bytesLE 8 n ++ content, p⟩ = .ok s := by
  have hlen : (mark ++ bytesLE 8 n ++ content).length = 12 + content.length := by simp [length_bytesLE, hm]; omega
  have ht : (mark ++ bytesLE 8 n ++ content).take 12 = mark ++ bytesLE 8 n := List.take_left' (by simp [length_bytesLE, hm])
  unfold secondPart
  rw [seek_zero, read_zero]
  simp only [Outcome.ok_bind, ht]
  rw [if_neg (by simp [length_bytesLE, hm])]
  have hlen2 : readInt64 ((mark ++ bytesLE 8 n).drop 4) = n := by
    rw [List.drop_left' hm, readInt64]
    have := leNat_bytesLE 8 n (by omega) []
    rw [List.append_nil, List.take_of_length_le (by rw [length_bytesLE]; exact Nat.le_refl 8)] at this
    rw [this, int64_nat _ hl]
  rw [hlen2, if_neg (by omega)]

/-- **C65, cut values.** When fewer bytes of the content are there than its length says, none of it is taken for the
content: the export has the header and all that follows it, as it is stored. -/
theorem export_cut (inflate : Bytes → Option Bytes) (head mark content blob : Bytes) (n : Nat) (hm : mark.length = 4)
    (hn : content.length < n) (hhl : head.length < 2 ^ 63) (hl : n < 2 ^ 63)
    (h : StoredAs inflate (cutValue head mark n content) blob) :
    exportValue inflate blob = .ok (head ++ mark ++ bytesLE 8 n ++ content) := by
  have hsplit : cutValue head mark n content = bytesLE 8 head.length ++ head ++ (mark ++ bytesLE 8 n ++ content) := by simp [cutValue]
  have hv : cutValue head mark n content ≠ [] := by
    intro e
    have := congrArg List.length e
    simp [cutValue, length_bytesLE] at this
  obtain ⟨b0, rest, rfl, hb, p, ho⟩ := open_stored inflate _ blob hv h
  rw [export_opened inflate b0 rest hb, ho]
  simp only [Outcome.ok_bind]
  obtain ⟨s', q, _, hd, e⟩ := unwrap_second ⟨b0 :: 1 :: rest, ((b0 :: 1 :: rest).length : Int)⟩ (by simp; omega) head
    (mark ++ bytesLE 8 n ++ content) (by simp [hm]; omega) hhl p
  rw [hsplit, e, secondPart_cut s' mark content n hm hn hl q]
  simp only [Outcome.ok_bind, hd]
  simp

example : exportValue (fun _ => none) ([1, 1] ++ cutValue [9, 9] [1, 2, 3, 4] 3 [5, 6]) =
    .ok ([9, 9, 1, 2, 3, 4] ++ bytesLE 8 3 ++ [5, 6]) :=
  export_cut _ [9, 9] [1, 2, 3, 4] [5, 6] _ 3 rfl (by decide) (by decide) (by decide) .plain

/-- **Finding.** Copying from a temporary file that is read to its end appends as many zeros as were asked for. -/
theorem copy_at_end_zeros (f g : Bytes) (n : Nat) (hn : 0 < n) :
    (fcopy (atEnd f f.length) (atEnd g g.length) n).1.file = f ++ List.replicate n 0 := by
  rw [fcopy, if_neg (by omega)]
  have hn' : ¬ ((n : Int) ≤ 0) := by omega
  simp only [fcopyCount, hn', if_false, Int.toNat_natCast]
  have hr : ((atEnd g g.length).read n).1 = [] := by simp [FileS.read]
  rw [hr]
  simp only [List.isEmpty_nil, if_true]
  rw [write_atEnd f f.length (Nat.le_refl _)]

example : (fcopy (atEnd [1, 2] 2) (atEnd [3] 1) 2).1.file = [1, 2, 0, 0] := by decide

/-- **C65, large values.** The last step of unwrapping a value in a temporary file appends the content exactly when all of
it is there, and otherwise leaves the file as it is. (That it appends instead of replacing is the finding
`large_keeps_blob`.) -/
theorem large_content_appended (f mark content : Bytes) (n : Nat) (hm : mark.length = 4) (hn : 0 < n) (hl : n < 2 ^ 63) :
    (secondLarge (atEnd f f.length) (atEnd (mark ++ bytesLE 8 n ++ content) (mark ++ bytesLE 8 n ++ content).length)).file =
      if n ≤ content.length then f ++ content.take n else f := by
  generalize hg : mark ++ bytesLE 8 n ++ content = g
  have hlen : g.length = 12 + content.length := by rw [← hg]; simp [length_bytesLE, hm]; omega
  have ht : g.take 12 = mark ++ bytesLE 8 n := by rw [← hg]; exact List.take_left' (by simp [length_bytesLE, hm])
  have hdr : g.drop 12 = content := by rw [← hg]; exact List.drop_left' (by simp [length_bytesLE, hm])
  have hlen2 : readInt64 ((mark ++ bytesLE 8 n).drop 4) = n := by
    rw [List.drop_left' hm, readInt64]
    have := leNat_bytesLE 8 n (by omega) []
    rw [List.append_nil, List.take_of_length_le (by rw [length_bytesLE]; exact Nat.le_refl 8)] at this
    rw [this, int64_nat _ hl]
  have hrd : (FileS.read { atEnd g g.length with pos := 0 } 12) = (mark ++ bytesLE 8 n, ⟨g, 12, g.length, false⟩) := by
    simp only [FileS.read, List.drop_zero, ht]
    simp [length_bytesLE, hm]
  unfold secondLarge
  simp only [hrd]
  rw [if_neg (by simp [length_bytesLE, hm]), hlen2]
  by_cases hc : n ≤ content.length
  · rw [if_pos (by omega), if_pos hc]
    have hset : (atEnd f f.length).setSize 0 = atEnd f 0 := rfl
    have hn' : ¬ ((n : Int) ≤ 0) := by omega
    rw [hset, fcopy, if_neg (by omega)]
    simp only [fcopyCount, hn', if_false, Int.toNat_natCast, FileS.read, hdr]
    have he : (content.take n).isEmpty = false := by
      rw [List.isEmpty_eq_false_iff]
      intro e
      have := congrArg List.length e
      rw [List.length_take, List.length_nil] at this
      omega
    rw [he]
    simp only [Bool.false_eq_true, if_false]
    rw [write_atEnd f 0 (Nat.zero_le _)]
  · rw [if_neg (by omega), if_neg hc]

example : (secondLarge (atEnd [1] 1) (atEnd ([9, 9, 9, 9] ++ bytesLE 8 2 ++ [5, 6]) 14)).file = [1, 5, 6] ∧
    (secondLarge (atEnd [1] 1) (atEnd ([9, 9, 9, 9] ++ bytesLE 8 3 ++ [5, 6]) 14)).file = [1] := by decide

/-- **Finding (C54).** An index of a pack that ends before its count is used all the same: eight bytes are asked for, twelve are
needed. -/
theorem short_index (ind : Bytes) :
    (readPackIndex ind = .throw ↔ ind.length < 8) ∧ (readPackIndex ind = .ub ↔ 8 ≤ ind.length ∧ ind.length < 12) := by
  unfold readPackIndex
  by_cases h1 : ind.length < 8
  · rw [if_pos h1]
    exact ⟨⟨fun _ => h1, fun _ => rfl⟩, ⟨fun e => (by cases e), fun e => (by omega)⟩⟩
  · rw [if_neg h1]
    by_cases h2 : ind.length < 12
    · rw [if_pos h2]
      exact ⟨⟨fun e => (by cases e), fun e => absurd e h1⟩, ⟨fun _ => ⟨by omega, h2⟩, fun _ => rfl⟩⟩
    · rw [if_neg h2]
      exact ⟨⟨fun e => (by cases e), fun e => absurd e h1⟩, ⟨fun e => (by cases e), fun e => absurd e.2 h2⟩⟩

example : readPackIndex [0, 0, 0, 0, 0, 0, 0, 0, 1] = .ub ∧ readPackIndex [0] = .throw ∧
    readPackIndex [0, 0, 0, 0, 0, 0, 0, 0, 0, 0, 0, 0] = .ok [] := by decide

end Verif.Value
