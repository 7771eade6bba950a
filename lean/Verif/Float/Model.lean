import Mathlib.Data.Nat.Bitwise
import Mathlib.Data.Nat.Log

/-!
# Model of the small floating-point conversions

Sources: `/repo/src/Support/SmallFPConversion.c` (the portable path, lines 60-163; the hardware
instructions of lines 32-58 are not modelled) and
`/repo/src/Accelerators/NNPA/Support/Stickify/DLF16Conversion.hpp`.

A float32 is its 32-bit pattern, as a natural number; machine words are naturals with explicit
wrap-around. Multiplication of two floats is the IEEE operation with rounding to nearest even and
subnormals, written out below.
-/

namespace Verif.Float

/-! ## IEEE single precision multiplication (not code of the project) -/

/-- Integer nearest to `a / b`, ties to even. -/
def rhe (a b : Nat) : Nat :=
  if 2 * (a % b) < b then a / b
  else if b < 2 * (a % b) then a / b + 1
  else a / b + a / b % 2

/-- Magnitude of a pattern with `fw` fraction bits in units of the smallest subnormal. -/
def mag (fw p : Nat) : Nat :=
  (p % 2 ^ fw + if p / 2 ^ fw = 0 then 0 else 2 ^ fw) * 2 ^ (p / 2 ^ fw - 1)

/-- Pattern nearest to `a / b` units of the smallest subnormal, ties to even, capped at `top`. -/
def roundPat (fw top a b : Nat) : Nat :=
  if a / b < 2 ^ (fw + 1) then min top (rhe a b)
  else
    let k := Nat.log 2 (a / b) - fw
    min top (k * 2 ^ fw + rhe a (b * 2 ^ k))

/-- `a * b` for float32 patterns. -/
def fmul (a b : Nat) : Nat :=
  let s := (a / 2 ^ 31 + b / 2 ^ 31) % 2 * 2 ^ 31
  let x := a % 2 ^ 31
  let y := b % 2 ^ 31
  let inf := 255 * 2 ^ 23
  if inf < x ∨ inf < y then inf + 2 ^ 22
  else if x = inf ∨ y = inf then (if x = 0 ∨ y = 0 then inf + 2 ^ 22 else s + inf)
  else s + roundPat 23 inf (mag 23 x * mag 23 y) (2 ^ 149)

/-- `isnan` on a float32 pattern. -/
def isNan32 (u : Nat) : Bool := decide (255 * 2 ^ 23 < u % 2 ^ 31)

/-! ## The conversions -/

/-- `om_bf16_to_f32`, SmallFPConversion.c 148-152. -/
def om_bf16_to_f32 (u16 : Nat) : Nat := u16 <<< 16 % 2 ^ 32

/-- `om_f32_to_bf16`, SmallFPConversion.c 154-163. -/
def om_f32_to_bf16 (f : Nat) : Nat :=
  let u32 := (f + (32767 + (if f &&& 0x1FFFF = 0x18000 then 1 else 0) * 0x10000)) % 2 ^ 32
  let u16 := u32 >>> 16
  if u16 &&& 0x7FFF = 0x7F80 ∧ isNan32 f then (u16 + 0x40) % 2 ^ 16
  else if u16 &&& 0x7FFF = 0 ∧ isNan32 f then (u16 + 2 ^ 16 - 1) % 2 ^ 16
  else u16

/-- `om_f16_to_f32`, SmallFPConversion.c 86-101. -/
def om_f16_to_f32 (u16 : Nat) : Nat :=
  let bias_mul := (2 * 127 - 15) <<< 23
  let bits := u16
  let sign := bits &&& 0x8000
  let bits := bits ^^^ sign
  let is_norm := decide (bits < 0x7C00)
  let bits := (sign <<< 16 % 2 ^ 32) ||| (bits <<< 13 % 2 ^ 32)
  let val := fmul bits bias_mul
  val ||| (if is_norm then 0 else 0x7F800000)

/-- `om_f32_to_f16`, SmallFPConversion.c 103-141. -/
def om_f32_to_f16 (f : Nat) : Nat :=
  let bias_mul := 15 <<< 23
  let bits := f
  let sign := bits &&& 0x80000000
  let bits := bits ^^^ sign
  let is_nan := decide (0x7F800000 < bits)
  let min_norm := (127 - 15 + 1) <<< 23
  let sub_rnd := (15 - 13) <<< 23
  let sub_mul := (127 + 13) <<< 23
  let is_sub := decide (bits < min_norm)
  let subn := fmul (fmul bits sub_rnd) sub_mul
  let norm := fmul bits bias_mul
  let bits := norm
  let bits := (bits + ((bits >>> 13) &&& 1)) % 2 ^ 32
  let bits := (bits + ((1 <<< (13 - 1)) - 1)) % 2 ^ 32
  let bits := if is_sub then subn else bits
  let bits := bits >>> 13
  let bits := if 0x7C00 < bits then 0x7C00 else bits
  let bits := if is_nan then 0x7E00 else bits
  (bits ||| (sign >>> 16)) % 2 ^ 16

/-- `NNP1::convert() const`, DLF16Conversion.hpp 101-130. `BFGET`/`BFPUT` on the disjoint fields
(lines 24-27) are division, remainder and sum. `NAN` is the positive quiet NaN. -/
def dlf16ToF32 (u : Nat) : Nat :=
  if u % 2 ^ 15 = 0 then (if u / 2 ^ 15 = 0 then 0 else 2 ^ 31)
  else if u % 2 ^ 15 = 0x7FFF then 0x7FC00000
  else u / 2 ^ 15 * 2 ^ 31 + (u % 2 ^ 15 / 2 ^ 9 - (31 : Int) + 127).toNat % 2 ^ 8 * 2 ^ 23
    + u % 2 ^ 9 * 2 ^ (23 - 9) % 2 ^ 23

/-- `FP32::NNP1_NMAX`, DLF16Conversion.hpp 92-98. -/
def nnp1NMax : Nat :=
  ((2 ^ 6 - 1 + 127 - 31) <<< 23) ||| ((2 ^ 9 - 2) <<< (23 - 9)) ||| (2 ^ 13 - 1)

/-- `NNP1::convert(const float &)`, DLF16Conversion.hpp 132-176. The optional exception code is not
modelled. -/
def f32ToDlf16 (fp32 : Nat) : Nat :=
  let exp0 : Int := (fp32 % 2 ^ 31 / 2 ^ 23 : Nat) - 127 + 31
  let fraction0 := fp32 % 2 ^ 23 + 2 ^ 13
  let carry := decide (fraction0 > 2 ^ 23 - 1)
  let fraction := if carry then 0 else fraction0
  let exp := if carry then exp0 + 1 else exp0
  let uint := 2 ^ 15 * (fp32 / 2 ^ 31)
  if 0 ≤ exp then
    if fp32 % 2 ^ 31 ≤ nnp1NMax then
      uint + exp.toNat % 2 ^ 6 * 2 ^ 9 + fraction / 2 ^ (23 - 9) % 2 ^ 9
    else uint ||| 0x7FFF
  else uint

end Verif.Float
