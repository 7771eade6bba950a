import Verif.IndexExpr.Spec

/-!
# Model of index expressions

Source: `/repo/src/Dialect/Mlir/IndexExpr.cpp` (cited below by line) and `IndexExprDetail.cpp`. Integer
index expressions only; the `index` type is unbounded. Scopes are not modelled: dimension and symbol
numbers mean the same everywhere. A failed assertion is `none`.

Literal division goes through `double`: `fl` is rounding to `double`, a parameter of the model.
`simp` is MLIR's `simplifyAffineExpr` reduced to what the code uses of it: whether the expression is a
constant.
-/

namespace Verif.IndexExpr

/-! ## Code the compiler generates -/

/-- MLIR `AffineExpr`. `a - b` is `a + b * -1`. -/
inductive Aff
  | const (n : Int)
  | sym (x : Nat)
  | add (a b : Aff)
  | mul (a : Aff) (n : Int)
  | floorDiv (a : Aff) (n : Int)
  | ceilDiv (a : Aff) (n : Int)
  | mod (a : Aff) (n : Int)

/-- Meaning of affine expressions (MLIR language reference): division and remainder by a positive
constant, remainder never negative. -/
def Aff.eval (ρ : Nat → Int) : Aff → Option Int
  | .const n => some n
  | .sym x => some (ρ x)
  | .add a b => lift2 (fun x y => some (x + y)) (a.eval ρ) (b.eval ρ)
  | .mul a n => (a.eval ρ).map (· * n)
  | .floorDiv a n => (a.eval ρ).bind fun x => if n ≤ 0 then none else some (floorQ x n)
  | .ceilDiv a n => (a.eval ρ).bind fun x => if n ≤ 0 then none else some (ceilQ x n)
  | .mod a n => (a.eval ρ).bind fun x => if n ≤ 0 then none else some (x % n)

/- MLIR values: `arith` operations, `affine.apply`, `affine.min` and `affine.max`. -/
mutual
inductive Val
  | const (n : Int)
  | leaf (x : Nat)
  | apply (a : Aff)
  | addi (a b : Val)
  | subi (a b : Val)
  | muli (a b : Val)
  | floordivsi (a b : Val)
  | ceildivsi (a b : Val)
  | remsi (a b : Val)
  | select (c : PVal) (t f : Val)
  | affMin (a : Aff) (l : List Aff)
  | affMax (a : Aff) (l : List Aff)

inductive PVal
  | const (b : Bool)
  | cmpi (p : Cmp) (a b : Val)
  | cmpEq (a b : PVal)
  | andi (a b : PVal)
  | ori (a b : PVal)
end

def affEvals (ρ : Nat → Int) : List Aff → Option (List Int)
  | [] => some []
  | a :: l => (a.eval ρ).bind fun x => (affEvals ρ l).map fun xs => x :: xs

/- Meaning of the operations (MLIR documentation); `remsi` rounds the quotient towards zero. -/
mutual
def Val.eval (ρ : Nat → Int) : Val → Option Int
  | .const n => some n
  | .leaf x => some (ρ x)
  | .apply a => a.eval ρ
  | .addi a b => lift2 (fun x y => some (x + y)) (a.eval ρ) (b.eval ρ)
  | .subi a b => lift2 (fun x y => some (x - y)) (a.eval ρ) (b.eval ρ)
  | .muli a b => lift2 (fun x y => some (x * y)) (a.eval ρ) (b.eval ρ)
  | .floordivsi a b => lift2 (fun x y => if y = 0 then none else some (floorQ x y)) (a.eval ρ) (b.eval ρ)
  | .ceildivsi a b => lift2 (fun x y => if y = 0 then none else some (ceilQ x y)) (a.eval ρ) (b.eval ρ)
  | .remsi a b => lift2 (fun x y => if y = 0 then none else some (x.tmod y)) (a.eval ρ) (b.eval ρ)
  | .select c t f => (c.eval ρ).bind fun b => lift2
      (fun x y => some (if b then x else y)) (t.eval ρ) (f.eval ρ)
  | .affMin a l => (a.eval ρ).bind fun x => (affEvals ρ l).map fun xs => least x xs
  | .affMax a l => (a.eval ρ).bind fun x => (affEvals ρ l).map fun xs => greatest x xs

def PVal.eval (ρ : Nat → Int) : PVal → Option Bool
  | .const b => some b
  | .cmpi p a b => (a.eval ρ).bind fun x => (b.eval ρ).map fun y => p.holds x y
  | .cmpEq a b => (a.eval ρ).bind fun x => (b.eval ρ).map fun y => x == y
  | .andi a b => (a.eval ρ).bind fun x => (b.eval ρ).map fun y => x && y
  | .ori a b => (a.eval ρ).bind fun x => (b.eval ρ).map fun y => x || y
end

/-! ## Index expressions during code generation -/

/-- Kinds Affine, Dim and Symbol are `aff`, kind NonAffine is `val`. -/
inductive IE
  | lit (n : Int)
  | aff (a : Aff)
  | val (v : Val)

inductive PIE
  | lit (b : Bool)
  | val (p : PVal)

def IE.eval (ρ : Nat → Int) : IE → Option Int
  | .lit n => some n
  | .aff a => a.eval ρ
  | .val v => v.eval ρ

def PIE.eval (ρ : Nat → Int) : PIE → Option Bool
  | .lit b => some b
  | .val p => p.eval ρ

def IE.lit? : IE → Option Int
  | .lit n => some n
  | _ => none

/-- `isAffine`, IndexExprDetail.cpp 265-272. -/
def IE.isAffine : IE → Bool
  | .val _ => false
  | _ => true

/-- `getAffineExpr`, IndexExprDetail.cpp 370-. -/
def IE.toAff : IE → Option Aff
  | .lit n => some (.const n)
  | .aff a => some a
  | .val _ => none

/-- `getValue`. -/
def IE.toVal : IE → Val
  | .lit n => .const n
  | .aff a => .apply a
  | .val v => v

def PIE.toVal : PIE → PVal
  | .lit b => .const b
  | .val p => p

/-- `initAsAffineExpr`, IndexExprDetail.cpp 203-215. -/
def mkAff (simp : Aff → Option Int) (a : Aff) : IE :=
  match simp a with
  | some n => .lit n
  | none => .aff a

def PIE.lit? : PIE → Option Bool
  | .lit b => some b
  | .val _ => none

/-- `compareOp`, 667-751, through `binaryOp` without affine function or neutral value. -/
def IE.cmp (p : Cmp) (a b : IE) : PIE :=
  match a.lit?, b.lit? with
  | some x, some y => .lit (p.holds x y)
  | _, _ => .val (.cmpi p a.toVal b.toVal)

/-- `select`, 1132-1160. -/
def IE.select (c : PIE) (t f : IE) : IE :=
  match c with
  | .lit b => if b then t else f
  | .val p => .val (.select p t.toVal f.toVal)

/-- `operator&`, 766-788. -/
def PIE.and (a b : PIE) : PIE :=
  match a, b with
  | .lit x, b => if x then b else .lit false
  | a, .lit y => if y then a else .lit false
  | .val p, .val q => .val (.andi p q)

/-- `operator|`, 791-813. -/
def PIE.or (a b : PIE) : PIE :=
  match a, b with
  | .lit x, b => if x then .lit true else b
  | a, .lit y => if y then .lit true else a
  | .val p, .val q => .val (.ori p q)

/-- `operator!`, 815-817: comparison with false. -/
def PIE.not (a : PIE) : PIE :=
  match a with
  | .lit x => .lit (x == false)
  | .val p => .val (.cmpEq p (.const false))

def toAffs : List IE → Option (List Aff)
  | [] => some []
  | x :: l => x.toAff.bind fun a => (toAffs l).map fun as => a :: as

def allLits : List IE → Option (List Int)
  | [] => some []
  | x :: l => x.lit?.bind fun a => (allLits l).map fun as => a :: as

/-- `min`, 1162-1210, with `reductionOp`, 821-866. -/
def IE.min (x : IE) (l : List IE) : IE :=
  match l with
  | [] => x
  | _ =>
    match allLits (x :: l) with
    | some (n :: ns) => .lit (ns.foldl (fun res aa => if aa < res then aa else res) n)
    | _ =>
      match toAffs (x :: l) with
      | some (a :: as) => .val (.affMin a as)
      | _ => l.foldl (fun res aa => .val (IE.select (IE.cmp .lt aa res) aa res).toVal) x

/-- `max`, 1224-1272, with `reductionOp`. -/
def IE.max (x : IE) (l : List IE) : IE :=
  match l with
  | [] => x
  | _ =>
    match allLits (x :: l) with
    | some (n :: ns) => .lit (ns.foldl (fun res aa => if aa > res then aa else res) n)
    | _ =>
      match toAffs (x :: l) with
      | some (a :: as) => .val (.affMax a as)
      | _ => l.foldl (fun res aa => .val (IE.select (IE.cmp .gt aa res) aa res).toVal) x

/-- `clamp`, 1091-1130. -/
def IE.clamp (a lo hi : IE) : IE :=
  match a.lit?, lo.lit?, hi.lit? with
  | some x, some l, some h => if x < l then lo else if x > h then hi else a
  | _, _, _ =>
    let res1 := IE.select (IE.cmp .lt a lo) lo a
    IE.select (IE.cmp .gt res1 hi) hi res1

/-- The `affine.min` or `affine.max` defining a value, and which of the two. -/
def IE.minMax? : IE → Option (Bool × Aff × List Aff)
  | .val (.affMin a l) => some (true, a, l)
  | .val (.affMax a l) => some (false, a, l)
  | _ => none

def mapOpt (f : Aff → Option IE) : List Aff → Option (List IE)
  | [] => some []
  | a :: l => (f a).bind fun x => (mapOpt f l).map fun xs => x :: xs

/-- Updating every term of a min or max and building the min or max again, 610-629. -/
def rebuild (isMin : Bool) (f : Aff → Option IE) (a : Aff) (l : List Aff) : Option IE :=
  (f a).bind fun x => (mapOpt f l).map fun xs => if isMin then IE.min x xs else IE.max x xs

/-- Propagation into a min or max, 597-630; `some none` where the code goes on with values. The
assertion at 616 has the side effect of computing the map; here it is always executed, that is, this
is a build with assertions. -/
def propagate (simp : Aff → Option Int) (f : IE → IE → Option IE) (a b : IE) : Option (Option IE) :=
  match a.minMax?, b.minMax? with
  | some (isMin, x, l), none =>
    if b.isAffine then (rebuild isMin (fun e => f (mkAff simp e) b) x l).map some else some none
  | none, some (isMin, x, l) =>
    if a.isAffine then (rebuild isMin (fun e => f a (mkAff simp e)) x l).map some else some none
  | _, _ => some none

/-- `binaryOp`, 563-634, when generating code. `affF` is `affineExprFct`. -/
def binaryOp (simp : Aff → Option Int) (prop affineWithLitB neutralA neutralB : Bool) (neutral : Int)
    (litF : Int → Int → Option Int) (affF : IE → IE → Option IE) (valF : Val → Val → Val)
    (a b : IE) : Option IE :=
  let resIsAffine := (a.lit?.isSome && b.lit?.isSome) ||
    (a.isAffine && b.isAffine && (!affineWithLitB || b.lit?.isSome))
  if resIsAffine && neutralA && a.lit? == some neutral then some b
  else if neutralB && b.lit? == some neutral then some a
  else
    match a.lit?, b.lit? with
    | some x, some y => (litF x y).map .lit
    | _, _ =>
      if resIsAffine then affF a b
      else if prop then
        (propagate simp affF a b).map fun r => r.getD (.val (valF a.toVal b.toVal))
      else some (.val (valF a.toVal b.toVal))

def affAdd (simp : Aff → Option Int) (a b : IE) : Option IE :=
  a.toAff.bind fun x => b.toAff.map fun y => mkAff simp (.add x y)

def affSub (simp : Aff → Option Int) (a b : IE) : Option IE :=
  a.toAff.bind fun x => b.toAff.map fun y => mkAff simp (.add x (.mul y (-1)))

def affMul (simp : Aff → Option Int) (a b : IE) : Option IE :=
  a.toAff.bind fun x => b.lit?.map fun n => mkAff simp (.mul x n)

def affFloorDiv (simp : Aff → Option Int) (a b : IE) : Option IE :=
  b.lit?.bind fun n =>
    if n > 1 then a.toAff.map fun x => mkAff simp (.floorDiv x n)
    else some (.val (.floordivsi a.toVal b.toVal))

def affCeilDiv (simp : Aff → Option Int) (a b : IE) : Option IE :=
  b.lit?.bind fun n =>
    if n > 1 then a.toAff.map fun x => mkAff simp (.ceilDiv x n)
    else some (.val (.ceildivsi a.toVal b.toVal))

def affMod (simp : Aff → Option Int) (a b : IE) : Option IE :=
  b.lit?.bind fun n =>
    if n ≥ 0 then a.toAff.map fun x => mkAff simp (.mod x n)
    else some (.val (.remsi a.toVal b.toVal))

/-- `std::floor((1.0 * a) / (1.0 * b))`, 936-940. Division by zero gives an infinity or NaN, whose
conversion to an integer is undefined: `none`. -/
def litFloorDiv (fl : ℚ → ℚ) (a b : Int) : Option Int :=
  if b = 0 then none else some ⌊fl (fl a / fl b)⌋

/-- `std::ceil((1.0 * a) / (1.0 * b))`, 962-965. -/
def litCeilDiv (fl : ℚ → ℚ) (a b : Int) : Option Int :=
  if b = 0 then none else some ⌈fl (fl a / fl b)⌉

/-- `llvm::mod`, which asserts a divisor of at least one. -/
def litMod (a b : Int) : Option Int := if b < 1 then none else some (a % b)

/-- `operator+`, 872-893. -/
def IE.add (simp : Aff → Option Int) (a b : IE) : Option IE :=
  binaryOp simp true false true true 0 (fun x y => some (x + y)) (affAdd simp) .addi a b

/-- `operator-`, 895-916. -/
def IE.sub (simp : Aff → Option Int) (a b : IE) : Option IE :=
  binaryOp simp true false false true 0 (fun x y => some (x - y)) (affSub simp) .subi a b

/-- `operator*`, 918-943: a literal on the left is moved to the right. -/
def IE.mul (simp : Aff → Option Int) (a b : IE) : Option IE :=
  let op := binaryOp simp false true true true 1 (fun x y => some (x * y)) (affMul simp) .muli
  if a.lit?.isSome then op b a else op a b

/-- `floorDiv`, 946-972. -/
def IE.floorDiv (fl : ℚ → ℚ) (simp : Aff → Option Int) (a b : IE) : Option IE :=
  binaryOp simp false true false true 1 (litFloorDiv fl) (affFloorDiv simp) .floordivsi a b

/-- `ceilDiv`, 975-999. -/
def IE.ceilDiv (fl : ℚ → ℚ) (simp : Aff → Option Int) (a b : IE) : Option IE :=
  binaryOp simp false true false true 1 (litCeilDiv fl) (affCeilDiv simp) .ceildivsi a b

/-- `operator%`, 1002-1025. -/
def IE.mod (simp : Aff → Option Int) (a b : IE) : Option IE :=
  binaryOp simp false true false false 1 litMod (affMod simp) .remsi a b

/- Code generated for an expression, when `κ x = some n` says that quantity `x` is known to be `n`. -/
mutual
def Expr.gen (fl : ℚ → ℚ) (simp : Aff → Option Int) (κ : Nat → Option Int) : Expr → Option IE
  | .lit n => some (.lit n)
  | .sym x => some (match κ x with | some n => .lit n | none => .aff (.sym x))
  | .leaf x => some (match κ x with | some n => .lit n | none => .val (.leaf x))
  | .add a b => (a.gen fl simp κ).bind fun x => (b.gen fl simp κ).bind fun y => x.add simp y
  | .sub a b => (a.gen fl simp κ).bind fun x => (b.gen fl simp κ).bind fun y => x.sub simp y
  | .mul a b => (a.gen fl simp κ).bind fun x => (b.gen fl simp κ).bind fun y => x.mul simp y
  | .floorDiv a b =>
    (a.gen fl simp κ).bind fun x => (b.gen fl simp κ).bind fun y => x.floorDiv fl simp y
  | .ceilDiv a b =>
    (a.gen fl simp κ).bind fun x => (b.gen fl simp κ).bind fun y => x.ceilDiv fl simp y
  | .mod a b => (a.gen fl simp κ).bind fun x => (b.gen fl simp κ).bind fun y => x.mod simp y
  | .clamp a lo hi => (a.gen fl simp κ).bind fun x => (lo.gen fl simp κ).bind fun l =>
      (hi.gen fl simp κ).map fun h => x.clamp l h
  | .select c t f => (c.gen fl simp κ).bind fun b => (t.gen fl simp κ).bind fun x =>
      (f.gen fl simp κ).map fun y => IE.select b x y
  | .min e es => (e.gen fl simp κ).bind fun x => (genList fl simp κ es).map fun xs => IE.min x xs
  | .max e es => (e.gen fl simp κ).bind fun x => (genList fl simp κ es).map fun xs => IE.max x xs

def PExpr.gen (fl : ℚ → ℚ) (simp : Aff → Option Int) (κ : Nat → Option Int) : PExpr → Option PIE
  | .cmp p a b => (a.gen fl simp κ).bind fun x => (b.gen fl simp κ).map fun y => IE.cmp p x y
  | .and a b => (a.gen fl simp κ).bind fun x => (b.gen fl simp κ).map fun y => PIE.and x y
  | .or a b => (a.gen fl simp κ).bind fun x => (b.gen fl simp κ).map fun y => PIE.or x y
  | .not a => (a.gen fl simp κ).map fun x => PIE.not x

def genList (fl : ℚ → ℚ) (simp : Aff → Option Int) (κ : Nat → Option Int) :
    List Expr → Option (List IE)
  | [] => some []
  | e :: es => (e.gen fl simp κ).bind fun x => (genList fl simp κ es).map fun xs => x :: xs
end

/-! ## Index expressions during shape inference -/

/-- A literal or a questionmark. -/
inductive Q (α : Type)
  | lit (n : α)
  | qm

/-- `binaryOp` during shape inference: a questionmark is not affine, so the neutral value on the left
counts only if both sides are literals. -/
def qBinaryOp (neutralA neutralB : Bool) (neutral : Int) (litF : Int → Int → Option Int)
    (a b : Q Int) : Option (Q Int) :=
  match a, b with
  | .lit x, .lit y =>
    if neutralA && x == neutral then some b
    else if neutralB && y == neutral then some a
    else (litF x y).map .lit
  | .qm, .lit y => if neutralB && y == neutral then some a else some .qm
  | _, _ => some .qm

/-- `operator*` swaps a literal on the left to the right. -/
def qMul (a b : Q Int) : Option (Q Int) :=
  match a with
  | .lit _ => qBinaryOp true true 1 (fun x y => some (x * y)) b a
  | .qm => qBinaryOp true true 1 (fun x y => some (x * y)) a b

def qCmp (p : Cmp) (a b : Q Int) : Q Bool :=
  match a, b with
  | .lit x, .lit y => .lit (p.holds x y)
  | _, _ => .qm

def qSelect (c : Q Bool) (t f : Q Int) : Q Int :=
  match c with
  | .lit b => if b then t else f
  | .qm => .qm

def qClamp (a lo hi : Q Int) : Q Int :=
  match a, lo, hi with
  | .lit x, .lit l, .lit h => if x < l then lo else if x > h then hi else a
  | _, _, _ => .qm

def qAnd (a b : Q Bool) : Q Bool :=
  match a, b with
  | .lit x, b => if x then b else .lit false
  | a, .lit y => if y then a else .lit false
  | .qm, .qm => .qm

def qOr (a b : Q Bool) : Q Bool :=
  match a, b with
  | .lit x, b => if x then .lit true else b
  | a, .lit y => if y then .lit true else a
  | .qm, .qm => .qm

def qNot (a : Q Bool) : Q Bool :=
  match a with
  | .lit x => .lit (x == false)
  | .qm => .qm

def qLits : List (Q Int) → Option (List Int)
  | [] => some []
  | .lit x :: l => (qLits l).map fun as => x :: as
  | .qm :: _ => none

def qMin (x : Q Int) (l : List (Q Int)) : Q Int :=
  match l with
  | [] => x
  | _ =>
    match qLits (x :: l) with
    | some (n :: ns) => .lit (ns.foldl (fun res aa => if aa < res then aa else res) n)
    | _ => .qm

def qMax (x : Q Int) (l : List (Q Int)) : Q Int :=
  match l with
  | [] => x
  | _ =>
    match qLits (x :: l) with
    | some (n :: ns) => .lit (ns.foldl (fun res aa => if aa > res then aa else res) n)
    | _ => .qm

/- What shape inference finds out about an expression. -/
mutual
def Expr.infer (fl : ℚ → ℚ) (κ : Nat → Option Int) : Expr → Option (Q Int)
  | .lit n => some (.lit n)
  | .sym x => some (match κ x with | some n => .lit n | none => .qm)
  | .leaf x => some (match κ x with | some n => .lit n | none => .qm)
  | .add a b => (a.infer fl κ).bind fun x => (b.infer fl κ).bind fun y =>
      qBinaryOp true true 0 (fun x y => some (x + y)) x y
  | .sub a b => (a.infer fl κ).bind fun x => (b.infer fl κ).bind fun y =>
      qBinaryOp false true 0 (fun x y => some (x - y)) x y
  | .mul a b => (a.infer fl κ).bind fun x => (b.infer fl κ).bind fun y => qMul x y
  | .floorDiv a b => (a.infer fl κ).bind fun x => (b.infer fl κ).bind fun y =>
      qBinaryOp false true 1 (litFloorDiv fl) x y
  | .ceilDiv a b => (a.infer fl κ).bind fun x => (b.infer fl κ).bind fun y =>
      qBinaryOp false true 1 (litCeilDiv fl) x y
  | .mod a b => (a.infer fl κ).bind fun x => (b.infer fl κ).bind fun y =>
      qBinaryOp false false 1 litMod x y
  | .clamp a lo hi => (a.infer fl κ).bind fun x => (lo.infer fl κ).bind fun l =>
      (hi.infer fl κ).map fun h => qClamp x l h
  | .select c t f => (c.infer fl κ).bind fun b => (t.infer fl κ).bind fun x =>
      (f.infer fl κ).map fun y => qSelect b x y
  | .min e es => (e.infer fl κ).bind fun x => (inferList fl κ es).map fun xs => qMin x xs
  | .max e es => (e.infer fl κ).bind fun x => (inferList fl κ es).map fun xs => qMax x xs

def PExpr.infer (fl : ℚ → ℚ) (κ : Nat → Option Int) : PExpr → Option (Q Bool)
  | .cmp p a b => (a.infer fl κ).bind fun x => (b.infer fl κ).map fun y => qCmp p x y
  | .and a b => (a.infer fl κ).bind fun x => (b.infer fl κ).map fun y => qAnd x y
  | .or a b => (a.infer fl κ).bind fun x => (b.infer fl κ).map fun y => qOr x y
  | .not a => (a.infer fl κ).map fun x => qNot x

def inferList (fl : ℚ → ℚ) (κ : Nat → Option Int) : List Expr → Option (List (Q Int))
  | [] => some []
  | e :: es => (e.infer fl κ).bind fun x => (inferList fl κ es).map fun xs => x :: xs
end

end Verif.IndexExpr
