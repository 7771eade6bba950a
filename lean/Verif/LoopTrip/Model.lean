import Verif.LoopTrip.Spec

/-!
# `LoopOpRewriteMaxTripCountPattern` (model)

Source: /repo/src/Dialect/ONNX/ONNXOps/Canonicalize.cpp 761-1010. The counter, its bound and its step are scalars of a
signed integer type of `w` bits; the trip count has 64 bits.
-/

namespace Verif.LoopTrip

variable {X : Type}

/-- A value outside the loop; two values are the same exactly when they are equal here, so constants carry a name. -/
inductive Src
  | const (name : ℕ) (z : ℤ)
  | value (name : ℕ)
deriving DecidableEq

/-- A value inside the body. Operations on the same operands are the same value here. -/
inductive Val
  /-- argument of the body: 0 is the iteration number, 1 the condition, then the carried values -/
  | arg (k : ℕ)
  /-- argument number `k` of an enclosing block -/
  | outerArg (k : ℕ) (name : ℕ)
  /-- an integer constant, inside or outside the body -/
  | const (name : ℕ) (z : ℤ)
  | add (a b : Val)
  | less (a b : Val)
  /-- any other value -/
  | other (name : ℕ)
deriving DecidableEq

/-- The operand for the trip count after the rewrite. -/
inductive Trip
  | src (s : Src)
  /-- case 2: `min(M, cast(ceil(div(cast(ub - lb), cast(step)))))` -/
  | code (M : Src) (lb ub step : Src)
deriving DecidableEq

/-- A Loop: trip count, condition, initial values, and the operands of the Yield of its body. -/
structure LoopOp where
  trip : Trip
  cond : Src
  init : List Src
  yields : List Val

/-- Outcome of the pattern. -/
inductive Result
  | skip
  | crash
  | into (l : LoopOp)

/-- Integers of `w` bits. -/
def wrap (w : ℕ) (z : ℤ) : ℤ := (z + 2 ^ (w - 1)) % 2 ^ w - 2 ^ (w - 1)

/-! ### Meaning -/

/-- Values of the surroundings. -/
structure Env (X : Type) where
  /-- width of the counter type -/
  width : ℕ
  src : ℕ → Dat X
  /-- the other operations of the body -/
  other : ℕ → ℕ → Bool → List (Dat X) → Dat X

def Src.eval (env : Env X) : Src → Dat X
  | .const _ z => .int z
  | .value n => env.src n

def Dat.toInt : Dat X → ℤ
  | .int z => z
  | _ => 0

def Dat.toBool : Dat X → Bool
  | .bool b => b
  | _ => false

/-- The value of an expression of the body in iteration `i`. -/
def Val.eval (env : Env X) (i : ℕ) (c : Bool) (s : List (Dat X)) : Val → Dat X
  | .arg k => if k = 0 then .int i else if k = 1 then .bool c else s.getD (k - 2) (.bool false)
  | .outerArg _ n => env.src n
  | .const _ z => .int z
  | .add a b => .int (wrap env.width ((a.eval env i c s).toInt + (b.eval env i c s).toInt))
  | .less a b => .bool ((a.eval env i c s).toInt < (b.eval env i c s).toInt)
  | .other n => env.other n i c s

/-- The body: the first Yield operand is the condition, then come the carried values, then the scanned ones. -/
def LoopOp.body (l : LoopOp) (env : Env X) (i : ℕ) (c : Bool) (s : List (Dat X)) : Yield X where
  go := ((l.yields.map (Val.eval env i c s)).getD 0 (.bool false)).toBool
  carried := ((l.yields.map (Val.eval env i c s)).drop 1).take l.init.length
  scan := (l.yields.map (Val.eval env i c s)).drop (1 + l.init.length)

/-- The computed trip count; `f32` rounds to single precision. -/
def Trip.eval (f32 : ℚ → ℚ) (env : Env X) : Trip → ℤ
  | .src s => (s.eval env).toInt
  | .code M lb ub step =>
    min (M.eval env).toInt
      ⌈f32 (f32 (wrap 64 ((ub.eval env).toInt - (lb.eval env).toInt) : ℤ) / f32 ((step.eval env).toInt : ℤ))⌉

/-- The results of a Loop. -/
def LoopOp.run (f32 : ℚ → ℚ) (env : Env X) (l : LoopOp) : List (Dat X) × List (List (Dat X)) :=
  loop (l.body env) (l.trip.eval f32 env) (l.cond.eval env).toBool (l.init.map (Src.eval env))

/-! ### The pattern -/

/-- The operand of a Loop at a position. -/
def LoopOp.operand (l : LoopOp) (M : Src) (k : ℕ) : Option Src := (M :: l.cond :: l.init)[k]?

/-- `v == yieldOp->getOperands()[argNumber - 1]`, 815-821: the index is an unsigned number, out of range for argument 0
and for arguments beyond the operands of the Yield. `none` is an access out of range. -/
def yieldsAt (yields : List Val) (k : ℕ) (v : Val) : Option Bool :=
  if k = 0 then none else (yields[k - 1]?).map (· = v)

/-- `mlir::isa<BlockArgument>(v)` and its number. -/
def Val.argNumber : Val → Option ℕ
  | .arg k => some k
  | .outerArg k _ => some k
  | _ => none

/-- `isIntConstantOrInvariantBlockArg`, 825-828, followed by `getFedValue` or the clone of the constant, 944-956. The
result is `none` for an access out of range, `some none` when there is no match. -/
def fixedValue (l : LoopOp) (M : Src) (v : Val) : Option (Option Src) :=
  match v.argNumber with
  | some k => (yieldsAt l.yields k v).bind fun b => if b then (l.operand M k).map some else some none
  | none => match v with
    | .const n z => some (some (.const n z))
    | _ => some none

/-- Constants of the integer bounds. -/
def Src.const? : Src → Option ℤ
  | .const _ z => some z
  | .value _ => none

/-- `loopOp->replaceUsesOfWith(M, new)` and the new condition, 789-795. The pattern that computes a trip count in code
needs a value that has no name yet; `fresh` is its name when it is put in place of an initial value. -/
def replaceTrip (l : LoopOp) (M : Src) (t : Trip) (asSrc : Src) : LoopOp where
  trip := t
  cond := if l.cond = M then asSrc else l.cond
  init := l.init.map fun s => if s = M then asSrc else s
  yields := .arg 1 :: l.yields.drop 1

/-- Case 1, 959-983: all bounds are constants. The division is done in double precision. -/
def constTrip (f64 : ℚ → ℚ) (lb ub step M : ℤ) : Option ℤ :=
  if step ≤ 0 ∨ ub ≤ lb then none
  else if M ≤ ⌈f64 (f64 (wrap 64 (ub - lb) : ℤ) / f64 step)⌉ then none
  else some ⌈f64 (f64 (wrap 64 (ub - lb) : ℤ) / f64 step)⌉

/-- The end of `matchOp`, 958-1008, and the rewrite, once the bounds are known. -/
def withBounds (f64 : ℚ → ℚ) (fresh : ℕ) (l : LoopOp) (M : Src) (mz : ℤ) (lb ub step : Src) : Result :=
  match lb.const?, ub.const?, step.const? with
  | some a, some b, some s =>
    match constTrip f64 a b s mz with
    | none => .skip
    | some t => .into (replaceTrip l M (.src (.const fresh t)) (.const fresh t))
  | _, _, _ => .into (replaceTrip l M (.code M lb ub step) (.value fresh))

/-- `matchOp`, 866-1008, and `matchAndRewrite`, 765-796. -/
def rewriteTrip (f64 : ℚ → ℚ) (fresh : ℕ) (l : LoopOp) : Result :=
  match l.trip with
  | .src (.const n mz) =>
    match l.yields.head? with
    | some (.less (.add counter step) ub) =>
      match counter.argNumber with
      | none => .skip
      | some k =>
        match yieldsAt l.yields k (.add counter step) with
        | none => .crash
        | some false => .skip
        | some true =>
          match fixedValue l (.const n mz) step with
          | none => .crash
          | some none => .skip
          | some (some st) =>
            match l.operand (.const n mz) k with
            | none => .crash
            | some lb =>
              match fixedValue l (.const n mz) ub with
              | none => .crash
              | some none => .skip
              | some (some u) => withBounds f64 fresh l (.const n mz) mz lb u st
    | _ => .skip
  | _ => .skip

end Verif.LoopTrip
