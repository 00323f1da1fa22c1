import Verif.Basic

/-!
# Time conversions (src/tool1cd/SystemClasses/System.cpp, src/tool1cd/cfapi/V8Time.cpp)

All quantities are integers; 64-bit overflow is not modelled (the theorems bound
their inputs), the 32-bit truncations are.
-/

namespace Verif.Time

/-- `SEC_TO_UNIX_EPOCH` (System.hpp:34). -/
def secToUnixEpoch : Int := 11644473600

/-- A FILETIME as its two 32-bit halves (System.hpp:42-47). -/
structure FileTime where
  lo : Nat
  hi : Nat
  deriving DecidableEq, Repr

/-- The 64-bit number a FILETIME denotes. Serves the model of V8Time.cpp:71-80. -/
def FileTime.val (f : FileTime) : Int := (f.lo : Int) + 2 ^ 32 * (f.hi : Int)

/-- Store a 64-bit number into a FILETIME by its bit pattern (V8Time.cpp:61). -/
def FileTime.ofInt (x : Int) : FileTime :=
  ⟨(x % 2 ^ 32).toNat, ((x / 2 ^ 32) % 2 ^ 32).toNat⟩

/-- Signed reading of a 64-bit pattern. Serves the model of System.cpp:42-57. -/
def toInt64 (x : Int) : Int := (x + 2 ^ 63) % 2 ^ 64 - 2 ^ 63

/-- `FileTime_to_POSIX` (System.cpp:42-57). `LARGE_INTEGER` (System.hpp:61-71) declares
`long HighPart`: where `long` has 32 bits it overlays the upper half of
`QuadPart`; where it has 64 bits it lies outside, and the upper half of
`QuadPart` is whatever was in the padding (`pad`). Result as a signed number;
the declared return type is its `uint64_t` image. -/
def fileTimeToPosix (long32 : Bool) (pad : Nat) (f : FileTime) : Int :=
  let date := toInt64 ((f.lo : Int) + 2 ^ 32 * (if long32 then (f.hi : Int) else (pad : Int)))
  let adjust := secToUnixEpoch * 10000
  (date - adjust).tdiv 10000000

/-- `UnixTimeToFileTime` (System.cpp:61-68) with `UInt32x32To64` (lines 33-36). -/
def unixToFileTime (t : Int) : FileTime :=
  let ll := (t % 2 ^ 32) * 10000000 + secToUnixEpoch
  ⟨(ll % 2 ^ 32).toNat, (ll / 2 ^ 32).toNat⟩

/-- `LocalFileTimeToFileTime` (System.cpp:92-103); `shift` is the C library's
`mktime(gmtime(t))`, which depends on the time zone (the identity in UTC). -/
def localToFileTime (long32 : Bool) (pad : Nat) (shift : Int → Int) (f : FileTime) : FileTime :=
  unixToFileTime (shift (fileTimeToPosix long32 pad f))

/-- `FileTimeToLocalFileTime` (System.cpp:105-115); `mktime(localtime(t))` is `t`. -/
def fileTimeToLocal (long32 : Bool) (pad : Nat) (f : FileTime) : FileTime :=
  unixToFileTime (fileTimeToPosix long32 pad f)

/-- `V8Time::EPOCH_START_WIN` (V8Time.cpp:26). -/
def epochStartWin : Int := 504911232000000

/-- The arithmetic of `V8Time::to_file_time` before the time-zone call
(V8Time.cpp:58-60). -/
def scaleOut (data : Int) : Int := (data - epochStartWin) * 1000

/-- The arithmetic of `V8Time::inner_from_file_time` after it (V8Time.cpp:75-79). -/
def scaleIn (ft : Int) : Int := ft.tdiv 1000 + epochStartWin

/-- `V8Time::to_file_time` (V8Time.cpp:54-65), with the operating-system conversion as
a parameter. -/
def toFileTimeWith (localToUtc : FileTime → FileTime) (data : Int) : FileTime :=
  localToUtc (FileTime.ofInt (scaleOut data))

/-- `V8Time::inner_from_file_time` (V8Time.cpp:71-80), likewise. -/
def fromFileTimeWith (utcToLocal : FileTime → FileTime) (f : FileTime) : Int :=
  scaleIn (toInt64 (utcToLocal f).val)

/-- The same with the conversions the library actually links. Built on V8Time.cpp:54-65. -/
def toFileTime (long32 : Bool) (pad : Nat) (shift : Int → Int) (data : Int) : FileTime :=
  toFileTimeWith (localToFileTime long32 pad shift) data

/-- Built on V8Time.cpp:71-80. -/
def fromFileTime (long32 : Bool) (pad : Nat) (f : FileTime) : Int :=
  fromFileTimeWith (fileTimeToLocal long32 pad) f

end Verif.Time
