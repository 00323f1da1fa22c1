import Verif.FileStream.From
import Verif.FileStream.Theorems

/-! # Property theorems: storing in a file what a stream holds (C115) -/

namespace Verif.FileStream
open Verif Stream

theorem put_all (c b : Bytes) (h : c.length ≤ b.length) : Spec.put c 0 b = b := by
  unfold Spec.put
  rw [List.drop_eq_nil_of_le (by omega)]
  simp

/-- Copying at least one byte there is: what is written. -/
theorem copy_put (dst src : Mem) (n p : Nat) (hn : 0 < n) (hd : dst.pos = p) (hp : p ≤ dst.data.length) (h0 : 0 ≤ src.pos)
    (hrem : src.pos < src.data.length) :
    Stream.copyFrom dst src n = .ok (((src.data.drop src.pos.toNat).take n).length,
      ⟨Spec.put dst.data p ((src.data.drop src.pos.toNat).take n), p + ((src.data.drop src.pos.toNat).take n).length⟩,
      { src with pos := src.pos + ((min n (src.data.length - src.pos.toNat) : Nat) : Int) }) := by
  unfold Stream.copyFrom Stream.copyCount Mem.readVec
  rw [if_neg (by omega)]
  simp only [show n ≠ 0 by omega, if_false]
  rw [read_result src n h0]
  simp only [Outcome.ok_bind]
  have hlen : ((src.data.drop src.pos.toNat).take n).length = min n (src.data.length - src.pos.toNat) := by simp
  unfold Mem.writeVec
  rw [if_neg (by rw [hlen]; omega), if_neg (by simp), List.take_left' rfl, write_put dst _ p hd hp]
  rfl

/-- **C115.** What a stream holds, wherever it stands, becomes the contents of the file: all of it, and nothing else. -/
theorem stored_whole (f : File) (src : Mem) :
    ∃ f' src', replaceFrom f src = .ok (src.data.length, f', src') ∧ f'.data.data = src.data ∧ f'.modified = true ∧ f'.streams = f.streams ∧
      src'.data = src.data := by
  have hsh : ∃ m : Mem, shorten f.data src.data.length = .ok m ∧ m.data.length ≤ src.data.length := by
    unfold shorten
    split
    · unfold Mem.setSize
      rw [if_neg (by omega)]
      refine ⟨_, rfl, ?_⟩
      show (resizeB f.data.data ((src.data.length : Nat) : Int).toNat).length ≤ _
      rw [length_resizeB]
      omega
    · exact ⟨_, rfl, by omega⟩
  obtain ⟨m, hm, hl⟩ := hsh
  unfold replaceFrom
  rw [hm]
  simp only [Outcome.ok_bind]
  rw [show (0 : Int) = ((0 : Nat) : Int) from rfl, goTo_ok { f with data := m, modified := true } 0 (Nat.zero_le _)]
  simp only [Outcome.ok_bind]
  have hs : (src.seek 0 .begin).2 = { src with pos := 0 } := by
    simp only [Mem.seek]; rw [if_neg (by omega)]
  by_cases he : src.data.length = 0
  · have h1 : Stream.copyFrom ⟨m.data, ((0 : Nat) : Int)⟩ src 0 = .ok (0, ⟨m.data, ((0 : Nat) : Int)⟩, { src with pos := 0 }) := by
      unfold Stream.copyFrom
      simp only [if_true, hs]
      rw [if_neg (by omega)]
    rw [h1]
    have hsn : src.data = [] := List.eq_nil_of_length_eq_zero he
    have hmn : m.data = [] := List.eq_nil_of_length_eq_zero (by omega)
    rw [he]
    refine ⟨_, _, rfl, ?_, rfl, rfl, rfl⟩
    show m.data = src.data
    rw [hmn, hsn]
  · have h1 : Stream.copyFrom ⟨m.data, ((0 : Nat) : Int)⟩ src 0 = .ok (src.data.length, ⟨src.data, src.data.length⟩, { src with pos := src.data.length }) := by
      have := copy_put ⟨m.data, ((0 : Nat) : Int)⟩ { src with pos := 0 } src.data.length 0 (by omega) rfl (Nat.zero_le _) (by simp) (by simp; omega)
      unfold Stream.copyFrom at this ⊢
      simp only [if_true, hs]
      rw [if_neg he] at this
      rw [if_pos he, this]
      simp only [Int.toNat_zero, List.drop_zero, List.take_length, put_all m.data src.data hl]
      simp
    rw [h1]
    exact ⟨_, _, rfl, rfl, rfl, rfl, rfl⟩

/-- A longer file, a stream that has been read. -/
example : replaceFrom ⟨⟨[1, 2, 3, 4], 3⟩, false, [2]⟩ ⟨[8, 9], 2⟩ = .ok (2, ⟨⟨[8, 9], 2⟩, true, [2]⟩, ⟨[8, 9], 2⟩) := by decide

/-- **C115.** What is stored from a place on are the next bytes of the stream, as many as asked for or as there are; nothing else of
the file changes. Left out: a stream at its end (`nothing_left_stores_zeros`) and a count of 0 (`no_bytes_stores_all`). -/
theorem stored_part_partial (f : File) (src : Mem) (p n q : Nat) (hn : 0 < n) (hp : p ≤ f.data.data.length) (hq : src.pos = q) (hrem : q < src.data.length) :
    ∃ f' src', writeFrom f src p n = .ok (min n (src.data.length - q), f', src') ∧
      f'.data.data = f.data.data.take p ++ (src.data.drop q).take n ++ f.data.data.drop (p + min n (src.data.length - q)) ∧
      f'.modified = true ∧ f'.streams = f.streams ∧ src'.data = src.data ∧ src'.pos = q + min n (src.data.length - q) := by
  unfold writeFrom
  rw [goTo_ok { f with modified := true } p hp]
  simp only [Outcome.ok_bind]
  rw [copy_put ⟨f.data.data, p⟩ src n p hn rfl hp (by omega) (by omega)]
  simp only [Outcome.ok_bind]
  have hlen : ((src.data.drop q).take n).length = min n (src.data.length - q) := by simp
  rw [hq]
  simp only [Int.toNat_natCast]
  simp only [hlen]
  refine ⟨_, _, rfl, ?_, rfl, rfl, rfl, ?_⟩
  · show Spec.put f.data.data p ((src.data.drop q).take n) = _
    unfold Spec.put
    rw [hlen]
  · show (q : Int) + _ = _
    omega

example : writeFrom ⟨⟨[1, 2, 3, 4], 0⟩, false, []⟩ ⟨[5, 6, 7], 1⟩ 1 2 = .ok (2, ⟨⟨[1, 6, 7, 4], 3⟩, true, []⟩, ⟨[5, 6, 7], 3⟩) := by decide

/-- **C115.** Beyond its end nothing is stored in a file. -/
theorem stored_beyond (f : File) (src : Mem) (p : Int) (n : Nat) (h : (f.data.data.length : Int) < p) : writeFrom f src p n = .throw := by
  unfold writeFrom
  rw [goTo_beyond { f with modified := true } p h]
  rfl

/-- **C115.** A file gets the contents of another one by a stream over it. -/
theorem stored_from_file (f g : File) (i : Nat) (p : Int) (hi : g.streams[i]? = some p) (hl : g.data.data.length < 2 ^ 31) :
    ∃ f' g', replaceFromFile f g i = .ok (g.data.data.length, f', g') ∧ f'.data.data = g.data.data ∧ f'.modified = true ∧
      f'.streams = f.streams ∧ g'.data.data = g.data.data ∧ g'.modified = g.modified := by
  have hil : i < g.streams.length := by
    rcases Nat.lt_or_ge i g.streams.length with h | h
    · exact h
    · rw [List.getElem?_eq_none h] at hi; cases hi
  have hsh : ∃ m : Mem, shorten f.data (size g) = .ok m ∧ m.data.length ≤ g.data.data.length := by
    unfold shorten size
    split
    · unfold Mem.setSize
      rw [if_neg (by omega)]
      refine ⟨_, rfl, ?_⟩
      show (resizeB f.data.data ((g.data.data.length : Nat) : Int).toNat).length ≤ _
      rw [length_resizeB]
      omega
    · exact ⟨_, rfl, by omega⟩
  obtain ⟨m, hm, hml⟩ := hsh
  unfold replaceFromFile
  rw [hm]
  simp only [Outcome.ok_bind]
  rw [show (0 : Int) = ((0 : Nat) : Int) from rfl, goTo_ok { f with data := m, modified := true } 0 (Nat.zero_le _)]
  simp only [Outcome.ok_bind]
  have hz : seekPos (size g) p 0 .begin = 0 := by
    unfold seekPos
    simp only
    rw [if_pos (by omega), if_pos (by omega)]
  unfold copyFrom
  rw [if_pos rfl]
  unfold seek
  rw [hi]
  simp only [Outcome.ok_bind, hz]
  by_cases h0 : g.data.data.length = 0
  · rw [if_neg (by simp [size, h0])]
    have hmn : m.data = [] := List.eq_nil_of_length_eq_zero (by omega)
    have hgn : g.data.data = [] := List.eq_nil_of_length_eq_zero h0
    rw [h0]
    refine ⟨_, _, rfl, ?_, rfl, rfl, rfl, rfl⟩
    show m.data = g.data.data
    rw [hmn, hgn]
  · rw [if_pos (by simpa [size] using h0)]
    unfold copyCount read
    have hg : (g.streams.set i 0)[i]? = some (0 : Int) := by rw [List.getElem?_set]; simp [hil]
    simp only [hg]
    obtain ⟨q, hq⟩ := readAt_ok { g with streams := g.streams.set i 0 } 0 g.data.data.length (Nat.zero_le _)
    have ht : toInt 0 = ((0 : Nat) : Int) := by decide
    rw [ht]
    have hw : Mem.writeVec ⟨m.data, ((0 : Nat) : Int)⟩ (g.data.data ++ List.replicate (g.data.data.length - g.data.data.length) 0) g.data.data.length =
        .ok (g.data.data.length, ⟨g.data.data, ((0 : Nat) : Int) + g.data.data.length⟩) := by
      rw [Nat.sub_self, List.replicate_zero, List.append_nil]
      unfold Mem.writeVec
      rw [if_neg h0, if_neg (by omega), List.take_length, write_put ⟨m.data, ((0 : Nat) : Int)⟩ g.data.data 0 rfl (Nat.zero_le _), put_all _ _ hml]
    have hb : (g.data.data.drop 0).take g.data.data.length = g.data.data := by rw [List.drop_zero, List.take_length]
    simp only [hb] at hq
    simp only [size, hq, Outcome.ok_bind, hw]
    exact ⟨_, _, rfl, rfl, rfl, rfl, rfl, rfl⟩

example : ∃ g', replaceFromFile ⟨⟨[1, 2, 3, 4], 3⟩, false, []⟩ ⟨⟨[8, 9], 1⟩, false, [2]⟩ 0 = .ok (2, ⟨⟨[8, 9], 2⟩, true, []⟩, g') := ⟨_, rfl⟩

/-! ## Findings -/

/-- **C115, counterexample in general.** From a stream at its end zeros are stored, as many as asked for. -/
theorem nothing_left_stores_zeros (f : File) (src : Mem) (p n : Nat) (hn : 0 < n) (hp : p ≤ f.data.data.length) (h0 : 0 ≤ src.pos)
    (hrem : src.data.length ≤ src.pos) :
    ∃ f' src', writeFrom f src p n = .ok (n, f', src') ∧
      f'.data.data = f.data.data.take p ++ List.replicate n 0 ++ f.data.data.drop (p + n) := by
  unfold writeFrom
  rw [goTo_ok { f with modified := true } p hp]
  simp only [Outcome.ok_bind]
  have hdrop : src.data.drop src.pos.toNat = [] := List.drop_of_length_le (by omega)
  have h1 : ∃ src', Stream.copyFrom ⟨f.data.data, p⟩ src n = .ok (n, ⟨Spec.put f.data.data p (List.replicate n 0), p + n⟩, src') := by
    unfold Stream.copyFrom Stream.copyCount Mem.readVec
    rw [if_neg (by omega)]
    simp only [show n ≠ 0 by omega, if_false]
    rw [read_result src n h0]
    simp only [Outcome.ok_bind, hdrop, List.take_nil, List.length_nil, List.nil_append, Nat.sub_zero]
    unfold Mem.writeVec
    simp only [if_true, List.length_replicate]
    rw [if_pos (by omega), write_put ⟨f.data.data, p⟩ _ p rfl hp]
    simp
  obtain ⟨src', h1⟩ := h1
  rw [h1]
  refine ⟨_, _, rfl, ?_⟩
  show Spec.put f.data.data p (List.replicate n 0) = _
  unfold Spec.put
  rw [List.length_replicate]

/-- **C115, counterexample.** Asked to store no bytes, all of the stream is stored, from its beginning. -/
theorem no_bytes_stores_all : writeFrom ⟨⟨[1, 2, 3, 4], 0⟩, false, []⟩ ⟨[8, 9], 1⟩ 1 0 = .ok (2, ⟨⟨[1, 8, 9, 4], 3⟩, true, []⟩, ⟨[8, 9], 2⟩) := by
  decide

theorem copyOwn_ok (f : File) (i p n : Nat) (hi : f.streams[i]? = some (p : Int)) (h31 : p < 2 ^ 31) (hn : 0 < n) (hp : p + n ≤ f.data.data.length) :
    ∃ f', copyOwn f i n = .ok (n, f') ∧ f'.data.data = Spec.put f.data.data (p + n) ((f.data.data.drop p).take n) ∧ f'.modified = f.modified := by
  have hlen : ((f.data.data.drop p).take n).length = n := by simp; omega
  unfold copyOwn read
  rw [hi]
  dsimp only
  rw [toInt_small p h31]
  unfold readAt
  rw [goTo_ok f p (by omega)]
  simp only [Outcome.ok_bind]
  rw [read_result ⟨f.data.data, p⟩ n (by simp)]
  simp only [Outcome.ok_bind, Int.toNat_natCast]
  unfold Mem.writeVec
  rw [if_neg (by omega), if_neg (by simp), List.take_left' rfl,
    write_put ⟨f.data.data, (p : Int) + ((min n (f.data.data.length - p) : Nat) : Int)⟩ _ (p + n) (by dsimp only; omega) hp]
  simp only [Outcome.ok_bind, hlen]
  exact ⟨_, rfl, rfl, rfl⟩

/-- **C115, counterexample in general.** Bytes of the file read by a stream over it are not stored at the place asked for, whichever
it is, but right behind those read. -/
theorem own_stream_misplaced (f : File) (i p n start : Nat) (hi : f.streams[i]? = some (p : Int)) (h31 : p < 2 ^ 31) (hn : 0 < n)
    (hp : p + n ≤ f.data.data.length) (hs : start ≤ f.data.data.length) :
    ∃ f', writeOwn f i start n = .ok (n, f') ∧ f'.data.data = Spec.put f.data.data (p + n) ((f.data.data.drop p).take n) := by
  unfold writeOwn
  rw [goTo_ok { f with modified := true } start hs]
  simp only [Outcome.ok_bind]
  obtain ⟨f', h1, h2, _⟩ := copyOwn_ok { f with data := ⟨f.data.data, start⟩, modified := true } i p n hi h31 hn hp
  exact ⟨f', h1, h2⟩

/-- **C115, counterexample in general.** A file stored in itself by a stream over it is doubled. -/
theorem own_stream_doubles (f : File) (i : Nat) (p : Int) (hi : f.streams[i]? = some p) :
    ∃ f', replaceOwn f i = .ok (f.data.data.length, f') ∧ f'.data.data = f.data.data ++ f.data.data := by
  have hil : i < f.streams.length := by
    rcases Nat.lt_or_ge i f.streams.length with h | h
    · exact h
    · rw [List.getElem?_eq_none h] at hi; cases hi
  unfold replaceOwn
  rw [show (0 : Int) = ((0 : Nat) : Int) from rfl, goTo_ok { f with modified := true } 0 (Nat.zero_le _)]
  simp only [Outcome.ok_bind]
  unfold seek
  rw [hi]
  have hz : seekPos (size { f with data := ⟨f.data.data, ((0 : Nat) : Int)⟩, modified := true }) p ((0 : Nat) : Int) .begin = 0 := by
    unfold seekPos
    simp only
    rw [if_pos (by omega), if_pos (by omega)]
    rfl
  simp only [Outcome.ok_bind, hz]
  by_cases h0 : f.data.data.length = 0
  · rw [if_neg (by simp [size, h0])]
    have hn : f.data.data = [] := List.eq_nil_of_length_eq_zero h0
    rw [h0]
    refine ⟨_, rfl, ?_⟩
    show f.data.data = f.data.data ++ f.data.data
    rw [hn]
    rfl
  · rw [if_pos (by simpa [size] using h0)]
    have hg : (f.streams.set i 0)[i]? = some ((0 : Nat) : Int) := by rw [List.getElem?_set]; simp [hil]
    obtain ⟨f', h1, h2, _⟩ := copyOwn_ok { data := ⟨f.data.data, ((0 : Nat) : Int)⟩, modified := true, streams := f.streams.set i 0 } i 0
      f.data.data.length hg (by decide) (by omega) (by simp)
    refine ⟨f', h1, ?_⟩
    rw [h2]
    unfold Spec.put
    simp

/-- The hypotheses are met. -/
example : (∃ f', writeOwn ⟨⟨[1, 2, 3, 4], 0⟩, false, [0]⟩ 0 3 1 = .ok (1, f') ∧ f'.data.data = [1, 1, 3, 4]) ∧
    (∃ f', replaceOwn ⟨⟨[1, 2], 0⟩, false, [1]⟩ 0 = .ok (2, f') ∧ f'.data.data = [1, 2, 1, 2]) :=
  ⟨⟨_, rfl, by decide⟩, ⟨_, rfl, by decide⟩⟩

end Verif.FileStream
