import Verif.Stream.Theorems

/-! # Property theorems: reading into and writing from vectors (C14) -/

namespace Verif.Stream
open Verif

/-- **C14, vectors.** Reading with a count of 0 gives the rest of the stream and says how many bytes that is; the vector is
as long as the whole stream, with zeros after the rest. -/
theorem vec_read_rest (data : Bytes) (p : Nat) (hp : p ≤ data.length) :
    ∃ s', Mem.readVec ⟨data, p⟩ 0 = .ok (data.length - p, data.drop p ++ List.replicate p 0, s') ∧
      s'.data = data ∧ s'.pos = data.length := by
  unfold Mem.readVec
  simp only [if_true]
  rw [read_result _ _ (by simp)]
  simp only [Outcome.ok_bind, Int.toNat_natCast]
  have ht : (data.drop p).take data.length = data.drop p := List.take_of_length_le (by simp)
  rw [ht, List.length_drop, show data.length - (data.length - p) = p by omega]
  refine ⟨_, rfl, rfl, ?_⟩
  simp
  omega

example : Mem.readVec ⟨[1, 2, 3], 1⟩ 0 = .ok (2, [2, 3, 0], ⟨[1, 2, 3], 3⟩) := by decide

/-- **Finding (C14).** Asked to write more bytes than the vector has, a stream reads past its end; this is the only count
for which it does. -/
theorem vec_write_overrun (s : Mem) (h : 0 ≤ s.pos) (buf : Bytes) (count : Nat) :
    s.writeVec buf count = .ub ↔ buf.length < count := by
  have hw : ∀ b, s.write b ≠ .ub := by
    intro b
    unfold Mem.write
    rw [if_neg (by omega)]
    simp
  unfold Mem.writeVec
  by_cases h0 : count = 0
  · rw [if_pos h0]
    constructor
    · intro e
      split at e
      · exact absurd e (hw _)
      · cases e
    · intro e
      omega
  · rw [if_neg h0]
    by_cases h1 : buf.length < count
    · rw [if_pos h1]
      exact ⟨fun _ => h1, fun _ => rfl⟩
    · rw [if_neg h1]
      exact ⟨fun e => absurd e (hw _), fun e => absurd e h1⟩

example : Mem.writeVec ⟨[1, 2, 3], 1⟩ [7] 2 = .ub ∧ Mem.writeVec ⟨[1, 2, 3], 1⟩ [7, 8] 1 = .ok (1, ⟨[1, 7, 3], 2⟩) := by decide

end Verif.Stream
