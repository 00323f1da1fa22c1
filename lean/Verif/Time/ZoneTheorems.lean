import Verif.Time.Theorems

/-! # Property theorems: file times and the time zone (C13) -/

namespace Verif.Time

/-- **C13, zones.** What the C library calls the time in a zone `d` seconds further
on moves the file time written by `d` seconds, up to the 2^32 seconds
that the seconds of the library wrap at. -/
theorem zone_moves_file_time (long32 : Bool) (pad : Nat) (shift : Int → Int) (d data : Int) :
    ((toFileTime long32 pad (fun t => shift t + d) data).val - (toFileTime long32 pad shift data).val - d * 10000000)
      % (2 ^ 32 * 10000000) = 0 := by
  unfold toFileTime toFileTimeWith localToFileTime
  dsimp only
  rw [val_unix, val_unix]
  omega

example : (toFileTime true 0 (fun t => id t + 3600) 636000000000000).val
    - (toFileTime true 0 id 636000000000000).val = 36000000000 := by decide +kernel

end Verif.Time
