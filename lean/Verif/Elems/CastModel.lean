import Mathlib.Data.Rat.Floor
import Mathlib.Algebra.Order.Floor.Ring

/-!
# Model of the element type casts of constants

Source: `/repo/src/Dialect/ONNX/ElementsAttr/ElementsAttrBuilder.cpp`.
-/

namespace Verif.Elems

/-- A `double`. Finite values are rationals; which ones are doubles is `IsDbl`. The sign of zero is left
out: nothing here looks at it. -/
inductive Dbl where
  | nan
  | inf (neg : Bool)
  | fin (q : ℚ)
  deriving DecidableEq

/-- The rational is a finite double: at most 53 significant bits. The bound on the exponent is left out. -/
def IsDbl (q : ℚ) : Prop := ∃ k e : Int, q = k * (2 : ℚ) ^ e ∧ |k| < 2 ^ 53

/-- Rounding to the nearest integer, ties to even: `llrint` and the conversion of integers to `double`
round this way in the default rounding mode. -/
def rint (q : ℚ) : Int :=
  let f := ⌊q⌋
  if q - f < 1 / 2 then f
  else if 1 / 2 < q - f then f + 1
  else if f % 2 = 0 then f else f + 1

/-- `static_cast<double>(n)` of a 64-bit integer. -/
def dblOfInt (n : Int) : ℚ :=
  if n.natAbs ≤ 2 ^ 53 then n
  else let ulp := 2 ^ (Nat.log2 n.natAbs - 52)
    rint (n / ulp) * ulp

/-- Comparisons of doubles. -/
def Dbl.lt : Dbl → ℚ → Bool
  | .nan, _ => false
  | .inf neg, _ => neg
  | .fin q, r => decide (q < r)

def Dbl.ge : Dbl → ℚ → Bool
  | .nan, _ => false
  | .inf neg, _ => !neg
  | .fin q, r => decide (r ≤ q)

/-- `static_cast<TO>(from)`. Undefined if the truncated value is not representable. -/
def truncCast (lo hi : Int) : Dbl → Option Int
  | .fin q => let t := q.num.tdiv q.den
    if lo ≤ t ∧ t ≤ hi then some t else none
  | _ => none

/-- `llrint`. The result is unspecified outside the range of `long long`. -/
def llrint : Dbl → Option Int
  | .fin q => if -2 ^ 63 ≤ rint q ∧ rint q < 2 ^ 63 then some (rint q) else none
  | _ => none

/-- `from - mid`: exact, see `isDbl_sub_mid`. -/
def Dbl.sub : Dbl → ℚ → Dbl
  | .fin q, r => .fin (q - r)
  | d, _ => d

/-- `convertIntFromDouble`, 301-340. `u64` says that `TO` is `uint64_t`; otherwise it is `int64_t`.
`mid + llrint(…)` is computed in `uint64_t`. -/
def convertIntFromDouble (truncate u64 : Bool) (d : Dbl) (min max : Int) : Option Int :=
  if d = .nan then some 0
  else if d.lt (dblOfInt min) then some min
  else if d.ge (dblOfInt max) then some max
  else if truncate then (if u64 then truncCast 0 (2 ^ 64 - 1) d else truncCast (-2 ^ 63) (2 ^ 63 - 1) d)
  else if u64 then
    (if d.lt (2 ^ 63) then llrint d else (llrint (d.sub (2 ^ 63))).map fun r => (2 ^ 63 + r) % 2 ^ 64)
  else llrint d

/-- The limits computed by `castToIntElementType`, 384-396. The shifts of `max()` and `min()`. -/
def castMin (unsigned : Bool) (width : Nat) : Int :=
  if unsigned then 0 else (-2 ^ 63) / 2 ^ (64 - width)

def castMax (unsigned : Bool) (width : Nat) : Int :=
  if unsigned then (2 ^ 64 - 1) / 2 ^ (64 - width) else (2 ^ 63 - 1) / 2 ^ (64 - width)

/-- `castToIntElementType` on one element for a floating point source and an integer type other than
`i1`, 381-397. -/
def castFloatToInt (round unsigned : Bool) (width : Nat) (d : Dbl) : Option Int :=
  convertIntFromDouble (!round) unsigned d (castMin unsigned width) (castMax unsigned width)

/-- `isWideNonZero` for a floating point source, 352-355. -/
def castFloatToBool (d : Dbl) : Bool := !decide (d = .fin 0)

/-- Reading a 64-bit pattern as a signed number, and as an unsigned one. -/
def toSigned (w : Nat) (n : Int) : Int := (n + 2 ^ (w - 1)) % 2 ^ w - 2 ^ (w - 1)

def toUnsigned (w : Nat) (n : Int) : Int := n % 2 ^ w

/-- An integer type. -/
structure IntTy where
  unsigned : Bool
  width : Nat

/-- The number of type `t` with the low bits of `n`: what `narrow` stores when elements are read out at
their type. -/
def IntTy.wrap (t : IntTy) (n : Int) : Int := if t.unsigned then toUnsigned t.width n else toSigned t.width n

/-- `castToIntElementType` on one wide element for an integer source, 398-421: truncation is delayed. -/
def castIntToInt (src dst : IntTy) (n : Int) : Int :=
  if dst.unsigned = src.unsigned then n
  else if dst.unsigned then toUnsigned 64 n else toSigned 64 n

/-- `castToFPElementType` with `saturate`, 434-455, on one element. -/
def saturate (max : ℚ) (d : Dbl) : Dbl :=
  match d with
  | .nan => .nan
  | .inf true => .fin (-max)
  | .inf false => .fin max
  | .fin q => if q ≤ -max then .fin (-max) else if q ≥ max then .fin max else .fin q

end Verif.Elems
