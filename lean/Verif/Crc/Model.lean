import Verif.Stream.Model

/-!
# The checksum of a stream (CRC32.cpp)

`boost::crc_32_type` is a library class: `crc_optimal<32, 0x04C11DB7, 0xFFFFFFFF, 0xFFFFFFFF,
true, true>`. It is modelled by the reflected shift register its documentation describes
(the library processes whole bytes with a table of the 256 results of `step` taken
eight times).
-/

namespace Verif.Crc
open Verif

/-- One shift of the reflected register. Serves the model of CRC32.cpp:35. -/
def step (s : BitVec 32) : BitVec 32 := (s >>> 1) ^^^ (if s.getLsbD 0 then 0xEDB88320#32 else 0#32)

/-- `n` shifts. Serves the model of CRC32.cpp:35. -/
def steps : Nat → BitVec 32 → BitVec 32
  | 0, s => s
  | n + 1, s => steps n (step s)

/-- One byte. Serves the model of CRC32.cpp:35. -/
def byte (s : BitVec 32) (b : UInt8) : BitVec 32 := steps 8 (s ^^^ BitVec.ofNat 32 b.toNat)

/-- `process_bytes` (CRC32.cpp:35). -/
def process (s : BitVec 32) (bs : Bytes) : BitVec 32 := bs.foldl byte s

/-- The loop (CRC32.cpp:29-36); `none` if it has not ended after `fuel` turns. -/
def loop : Nat → BitVec 32 → Stream.Mem → Outcome (Option (BitVec 32 × Stream.Mem))
  | 0, _, _ => .ok none
  | fuel + 1, s, m => do
    let (got, m) ← m.read 1024
    if got.isEmpty then .ok (some (s, m)) else loop fuel (process s got) m

/-- `_crc32` (CRC32.cpp:24-38) of a memory stream; `checksum()` inverts the register. -/
def crc32 (fuel : Nat) (m : Stream.Mem) : Outcome (Option (Nat × Stream.Mem)) := do
  match ← loop fuel 0xFFFFFFFF#32 (m.seek 0 .begin).2 with
  | none => .ok none
  | some (s, m) => .ok (some ((~~~ s).toNat, m))

end Verif.Crc
