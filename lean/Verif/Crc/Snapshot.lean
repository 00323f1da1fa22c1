import Verif.Crc.Theorems
import Verif.Depot.FileTheorems

/-! # Damaged snapshots of depot versions (C92) -/

namespace Verif.Crc
open Verif Depot.File

/-- **C92.** A snapshot that unpacks to something that differs from what its checksum was taken
of in at most four neighbouring bytes is not used. -/
theorem damaged_snapshot_not_used (C : Cache) (hC : C.crc = Spec.crc32) (rootobj : Bytes) (ver : Int) (r : Row)
    (h1 : rootobj.length = 16) (h2 : r.maker.length = 16) (pre a b post s : Bytes)
    (hr : r.crc = Spec.crc32 (pre ++ a ++ post)) (hs : C.file (snapName ver) = some s)
    (hu : Spec.Unpacked C rootobj r.maker s (pre ++ b ++ post)) (hl : a.length = b.length) (h4 : a.length ≤ 4) (hne : a ≠ b) (x : Bytes) :
    snapshot C rootobj ver r ≠ (some x, true) := by
  intro h
  obtain ⟨_, s', hs', hu', hc⟩ := (Theorems.snapshot_iff C rootobj ver r h1 h2 x).1 h
  rw [hs] at hs'
  cases hs'
  have hx : x = pre ++ b ++ post := by
    unfold Spec.Unpacked at hu hu'
    split at hu
    · rw [if_pos (by assumption)] at hu'
      rw [hu', hu]
    · rw [if_neg (by assumption)] at hu'
      have := hu'.symm.trans hu
      exact (Prod.mk.inj this).1
  rw [hx, hC, hr] at hc
  exact crc_detects_change pre a b post hl h4 hne hc.symm

/-- Non-vacuity: a snapshot that is stored as it is, with one byte changed. -/
example : snapshot ⟨fun _ => some [1, 2, 9], fun s => (s, true), Spec.crc32⟩ (List.replicate 16 5) 7
    ⟨[], maker2, Spec.crc32 [1, 2, 3], []⟩ = (some [1, 2, 9], false) := by decide +kernel

example (x : Bytes) : snapshot ⟨fun _ => some [1, 2, 9], fun s => (s, true), Spec.crc32⟩ (List.replicate 16 5) 7
    ⟨[], maker2, Spec.crc32 [1, 2, 3], []⟩ ≠ (some x, true) :=
  damaged_snapshot_not_used _ rfl _ _ _ rfl rfl [1, 2] [3] [9] [] [1, 2, 9] (congrArg Spec.crc32 (rfl : ([1, 2, 3] : Bytes) = [1, 2] ++ [3] ++ [])) rfl (by unfold Spec.Unpacked; rw [if_pos (by decide)]; rfl)
    rfl (by decide) (by decide) x

end Verif.Crc
