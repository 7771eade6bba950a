import Mathlib.Data.Rat.Floor

/-!
# What index expressions mean

Specification only. An index expression is built from integers and from quantities (dimensions,
elements of index tensors) that may be known only at run time. `Expr.eval ρ` is its mathematical value
when quantity `x` has value `ρ x`; `none` where the value is not defined (division by zero, remainder
by a divisor below one, clamping to an empty range).
-/

namespace Verif.IndexExpr

inductive Cmp
  | eq | ne | lt | le | gt | ge

def Cmp.holds : Cmp → Int → Int → Bool
  | .eq, a, b => decide (a = b)
  | .ne, a, b => decide (a ≠ b)
  | .lt, a, b => decide (a < b)
  | .le, a, b => decide (a ≤ b)
  | .gt, a, b => decide (a > b)
  | .ge, a, b => decide (a ≥ b)

/- `sym x` is a quantity used as dimension or symbol of affine expressions, `leaf x` one that is not. -/
mutual
inductive Expr
  | lit (n : Int)
  | sym (x : Nat)
  | leaf (x : Nat)
  | add (a b : Expr)
  | sub (a b : Expr)
  | mul (a b : Expr)
  | floorDiv (a b : Expr)
  | ceilDiv (a b : Expr)
  | mod (a b : Expr)
  | clamp (a lo hi : Expr)
  | select (c : PExpr) (t f : Expr)
  | min (e : Expr) (es : List Expr)
  | max (e : Expr) (es : List Expr)

inductive PExpr
  | cmp (p : Cmp) (a b : Expr)
  | and (a b : PExpr)
  | or (a b : PExpr)
  | not (a : PExpr)
end

/-- Quotient rounded towards minus infinity. -/
def floorQ (a b : Int) : Int := ⌊(a : ℚ) / b⌋

/-- Quotient rounded towards plus infinity. -/
def ceilQ (a b : Int) : Int := ⌈(a : ℚ) / b⌉

def least (x : Int) (xs : List Int) : Int := xs.foldl min x
def greatest (x : Int) (xs : List Int) : Int := xs.foldl max x

def lift2 (f : Int → Int → Option Int) (a b : Option Int) : Option Int :=
  a.bind fun x => b.bind fun y => f x y

mutual
def Expr.eval (ρ : Nat → Int) : Expr → Option Int
  | .lit n => some n
  | .sym x => some (ρ x)
  | .leaf x => some (ρ x)
  | .add a b => lift2 (fun x y => some (x + y)) (a.eval ρ) (b.eval ρ)
  | .sub a b => lift2 (fun x y => some (x - y)) (a.eval ρ) (b.eval ρ)
  | .mul a b => lift2 (fun x y => some (x * y)) (a.eval ρ) (b.eval ρ)
  | .floorDiv a b => lift2 (fun x y => if y = 0 then none else some (floorQ x y)) (a.eval ρ) (b.eval ρ)
  | .ceilDiv a b => lift2 (fun x y => if y = 0 then none else some (ceilQ x y)) (a.eval ρ) (b.eval ρ)
  | .mod a b => lift2 (fun x y => if y < 1 then none else some (x % y)) (a.eval ρ) (b.eval ρ)
  | .clamp a lo hi => (a.eval ρ).bind fun x => lift2
      (fun l h => if h < l then none else some (max l (min x h))) (lo.eval ρ) (hi.eval ρ)
  | .select c t f => (c.eval ρ).bind fun b => if b then t.eval ρ else f.eval ρ
  | .min e es => (e.eval ρ).bind fun x => (evalList ρ es).map fun xs => least x xs
  | .max e es => (e.eval ρ).bind fun x => (evalList ρ es).map fun xs => greatest x xs

def PExpr.eval (ρ : Nat → Int) : PExpr → Option Bool
  | .cmp p a b => (a.eval ρ).bind fun x => (b.eval ρ).map fun y => p.holds x y
  | .and a b => (a.eval ρ).bind fun x => (b.eval ρ).map fun y => x && y
  | .or a b => (a.eval ρ).bind fun x => (b.eval ρ).map fun y => x || y
  | .not a => (a.eval ρ).map fun x => !x

def evalList (ρ : Nat → Int) : List Expr → Option (List Int)
  | [] => some []
  | e :: es => (e.eval ρ).bind fun x => (evalList ρ es).map fun xs => x :: xs
end

/- No minimum or maximum occurs in a position whose value the expression may take over. -/
mutual
def Expr.noMinMax : Expr → Bool
  | .lit _ => true
  | .sym _ => true
  | .leaf _ => true
  | .add a b => a.noMinMax && b.noMinMax
  | .sub a b => a.noMinMax && b.noMinMax
  | .mul a b => a.noMinMax && b.noMinMax
  | .floorDiv a b => a.noMinMax && b.noMinMax
  | .ceilDiv a b => a.noMinMax && b.noMinMax
  | .mod a b => a.noMinMax && b.noMinMax
  | .clamp a lo hi => a.noMinMax && lo.noMinMax && hi.noMinMax
  | .select _ t f => t.noMinMax && f.noMinMax
  | .min _ _ => false
  | .max _ _ => false
end

/-- Numbers whose quotient `double` arithmetic rounds correctly: both representable comfortably, or
the divisor a larger 64-bit number than the dividend. -/
def DivOk (x y : Int) : Prop :=
  |x| + |y| ≤ 2 ^ 52 ∨ (|x| ≤ 2 ^ 52 ∧ |x| < |y| ∧ |y| ≤ 2 ^ 63)

/- The restrictions under which the code is right: divisions only of numbers that `double` handles, remainders only of non-negative numbers, and no minimum or maximum is subtracted. -/
mutual
def Expr.Ok (ρ : Nat → Int) : Expr → Prop
  | .lit _ => True
  | .sym _ => True
  | .leaf _ => True
  | .add a b => a.Ok ρ ∧ b.Ok ρ
  | .sub a b => a.Ok ρ ∧ b.Ok ρ ∧ b.noMinMax = true
  | .mul a b => a.Ok ρ ∧ b.Ok ρ
  | .floorDiv a b => a.Ok ρ ∧ b.Ok ρ ∧
      ∃ x y, a.eval ρ = some x ∧ b.eval ρ = some y ∧ y ≠ 0 ∧ DivOk x y
  | .ceilDiv a b => a.Ok ρ ∧ b.Ok ρ ∧
      ∃ x y, a.eval ρ = some x ∧ b.eval ρ = some y ∧ y ≠ 0 ∧ DivOk x y
  | .mod a b => a.Ok ρ ∧ b.Ok ρ ∧ ∃ x y, a.eval ρ = some x ∧ b.eval ρ = some y ∧ 0 ≤ x ∧ 1 ≤ y
  | .clamp a lo hi => a.Ok ρ ∧ lo.Ok ρ ∧ hi.Ok ρ
  | .select c t f => c.Ok ρ ∧ t.Ok ρ ∧ f.Ok ρ
  | .min e es => e.Ok ρ ∧ OkList ρ es
  | .max e es => e.Ok ρ ∧ OkList ρ es

def PExpr.Ok (ρ : Nat → Int) : PExpr → Prop
  | .cmp _ a b => a.Ok ρ ∧ b.Ok ρ
  | .and a b => a.Ok ρ ∧ b.Ok ρ
  | .or a b => a.Ok ρ ∧ b.Ok ρ
  | .not a => a.Ok ρ

def OkList (ρ : Nat → Int) : List Expr → Prop
  | [] => True
  | e :: es => e.Ok ρ ∧ OkList ρ es
end

/-- What is used of rounding to `double`: it is monotone and keeps numbers with 53 significant bits
(in the range of exponents that matters here). -/
structure IsDouble (fl : ℚ → ℚ) : Prop where
  mono : ∀ x y, x ≤ y → fl x ≤ fl y
  exact : ∀ (m : ℤ) (k : ℕ), |m| ≤ 2 ^ 53 → k ≤ 64 → fl (m / 2 ^ k) = m / 2 ^ k
  pow : ∀ m : ℤ, |m| = 2 ^ 63 → fl m = m

end Verif.IndexExpr
