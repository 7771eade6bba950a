import Verif.Scalar.Spec
import Mathlib.Algebra.Order.Floor.Ring

/-!
# Cast of ONNX

The types of elements, their values, and what a conversion has to give.
-/

namespace Verif.Casts
open Scalar (Num)

/-- Formats of floats. -/
inductive FTy where
  | f16 | bf16 | f32 | f64
  deriving DecidableEq

def FTy.width : FTy → ℕ
  | f16 => 16
  | bf16 => 16
  | f32 => 32
  | f64 => 64

/-- Types of elements: integers of `w` bits, where booleans are the ones of one bit; floats; and the type of
indices of the compiler. -/
inductive Ty where
  | int (w : ℕ) (uns : Bool)
  | flt (f : FTy)
  | index
  deriving DecidableEq

/-- A boolean is not called unsigned, and no type is empty. -/
def Ty.Ok : Ty → Prop
  | .int w uns => 0 < w ∧ (w = 1 → uns = false)
  | _ => True

/-- Values with their types. -/
inductive V where
  | int (w : ℕ) (uns : Bool) (b : BitVec w)
  | flt (f : FTy) (x : Num)
  | index (b : BitVec 64)

def V.ty : V → Ty
  | .int w uns _ => .int w uns
  | .flt f _ => .flt f
  | .index _ => .index

/-- The integer that some bits stand for. -/
def intOf (w : ℕ) (uns : Bool) (b : BitVec w) : ℤ :=
  if uns = true ∨ w = 1 then b.toNat else b.toInt

/-- The number that a value stands for. -/
noncomputable def V.num : V → Num
  | .int w uns b => .fin (intOf w uns b : ℝ)
  | .flt _ x => x
  | .index b => .fin (b.toInt : ℝ)

/-- The fraction is dropped. -/
noncomputable def chop (a : ℝ) : ℤ := if 0 ≤ a then ⌊a⌋ else ⌈a⌉

/-- The range of a type of integers. -/
def lowest (w : ℕ) (uns : Bool) : ℤ := if uns = true ∨ w = 1 then 0 else -2 ^ (w - 1)
def highest (w : ℕ) (uns : Bool) : ℤ := if uns = true ∨ w = 1 then 2 ^ w - 1 else 2 ^ (w - 1) - 1

/-- To a boolean: whether the value is not zero. -/
def ToBool (v r : V) : Prop :=
  (v.num = .fin 0 → r.num = .fin 0) ∧ (v.num ≠ .fin 0 → r.num = .fin 1)

/-- To an integer of `w` bits: the low bits of an integer; a float without its fraction, if that is in the
range. -/
def ToInt (w : ℕ) (uns : Bool) (v r : V) : Prop :=
  match v with
  | .int w' uns' b => ∃ z : ℤ, r.num = .fin z ∧ (2 : ℤ) ^ w ∣ z - intOf w' uns' b
  | .index b => ∃ z : ℤ, r.num = .fin z ∧ (2 : ℤ) ^ w ∣ z - b.toInt
  | .flt _ x => ∀ a, x = .fin a → lowest w uns ≤ chop a → chop a ≤ highest w uns →
    r.num = .fin (chop a)

/-- To a float: integers are rounded once; floats are rounded if the format is narrower. -/
def ToFloat (rnd : FTy → ℝ → Num) (f : FTy) (v r : V) : Prop :=
  match v with
  | .int w' uns' b => r.num = rnd f (intOf w' uns' b)
  | .index b => r.num = rnd f b.toInt
  | .flt f' x =>
    (f'.width ≤ f.width → r.num = x) ∧
    (f.width < f'.width → (∀ a, x = .fin a → r.num = rnd f a) ∧ ((∀ a, x ≠ .fin a) → r.num = x))

/-- `r` is a correct result of converting `v` to the type `d`; `rnd` rounds to a format. -/
def IsCast (rnd : FTy → ℝ → Num) (d : Ty) (v r : V) : Prop :=
  r.ty = d ∧
  match d with
  | .int w uns => if w = 1 then ToBool v r else ToInt w uns v r
  | .index => ToInt 64 false v r
  | .flt f => ToFloat rnd f v r

/-- The values for which ONNX says what the result is: a float that becomes an integer must fit. -/
def Fits (d : Ty) (v : V) : Prop :=
  match v with
  | .flt _ x =>
    match d with
    | .int w uns => w ≠ 1 → ∃ a, x = .fin a ∧ lowest w uns ≤ chop a ∧ chop a ≤ highest w uns
    | .index => ∃ a, x = .fin a ∧ lowest 64 false ≤ chop a ∧ chop a ≤ highest 64 false
    | .flt _ => True
  | _ => True

end Verif.Casts
