import Verif.Zlib.Model

/-!
# What a correct streaming codec is

`D` is the format: `D c = some x` means `c` is a complete compressed stream that
stands for `x`. The laws are zlib's documented contract of `deflate` and
`inflate`, for the calls the drivers make.
-/

namespace Verif.Zlib
open Verif
variable {σ τ : Type}

/-- `z` compresses into format `D`. `Abs s x y m`: in state `s` the input `x` has been
taken and the output `y` has been produced, and the stream is not finished;
`m = some r` means that finishing has been requested with the input `r` left over,
so that the caller has to repeat the call with exactly that input. -/
structure CorrectDeflater (z : Deflater σ) (D : Bytes → Option Bytes) where
  Abs : σ → Bytes → Bytes → Option Bytes → Prop
  pending : σ → Bytes → Bool → Nat
  abs_init : Abs z.init [] [] none
  /-- never more output than there is room for -/
  room : ∀ s inp fin cap, (z.call s inp fin cap).2.2.length ≤ cap
  /-- if room is left, all input has been taken -/
  takes : ∀ s inp fin cap, (z.call s inp fin cap).2.2.length < cap → (z.call s inp fin cap).2.1 = []
  /-- unless the stream gets finished, the state stays meaningful -/
  keeps : ∀ s x y m inp fin cap, Abs s x y m → (∀ r, m = some r → inp = r ∧ fin = true) →
    ¬(fin = true ∧ (z.call s inp fin cap).2.2.length < cap) →
    ∃ used, inp = used ++ (z.call s inp fin cap).2.1 ∧
      Abs (z.call s inp fin cap).1 (x ++ used) (y ++ (z.call s inp fin cap).2.2)
        (if fin then some (z.call s inp fin cap).2.1 else none)
  /-- with `Z_FINISH` and room left, the stream is complete -/
  finishes : ∀ s x y m inp cap, Abs s x y m → (∀ r, m = some r → inp = r) →
    (z.call s inp true cap).2.2.length < cap →
    D (y ++ (z.call s inp true cap).2.2) = some (x ++ inp)
  /-- filling the output buffer makes progress -/
  progress : ∀ s inp fin cap, 0 < cap → (z.call s inp fin cap).2.2.length = cap →
    pending (z.call s inp fin cap).1 (z.call s inp fin cap).2.1 fin < pending s inp fin

/-- `z` decompresses format `D`. `Abs t u y`: `u` has been taken and `y` produced. The
laws speak of input that is a part of a complete stream. -/
structure CorrectInflater (z : Inflater τ) (D : Bytes → Option Bytes) where
  Abs : τ → Bytes → Bytes → Prop
  abs_init : Abs z.init [] []
  room : ∀ t inp cap, (z.call t inp cap).2.2.2.length ≤ cap
  /-- no error, the state stays meaningful, the output is a part of the contents -/
  keeps : ∀ t u y inp cap c x w, Abs t u y → D c = some x → c = u ++ inp ++ w → y <+: x →
    (z.call t inp cap).1 ≠ .error ∧
    (∃ used, inp = used ++ (z.call t inp cap).2.2.1 ∧
      Abs (z.call t inp cap).2.1 (u ++ used) (y ++ (z.call t inp cap).2.2.2)) ∧
    y ++ (z.call t inp cap).2.2.2 <+: x
  /-- if room is left, all input has been taken, and the end is reported exactly when
  the whole stream has been taken; then all contents have been produced -/
  ends : ∀ t u y inp cap c x w, Abs t u y → D c = some x → c = u ++ inp ++ w → y <+: x →
    (z.call t inp cap).2.2.2.length < cap →
    (z.call t inp cap).2.2.1 = [] ∧
    ((z.call t inp cap).1 = .streamEnd ↔ w = []) ∧
    (w = [] → y ++ (z.call t inp cap).2.2.2 = x)

end Verif.Zlib
