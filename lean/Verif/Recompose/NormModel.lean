import Verif.Recompose.NormSpec

/-!
# Recomposition of LayerNormalization, RMSLayerNormalization and Gelu

Models `RecomposeLayerNormFromMulPattern` and `RecomposeGeluFromMulPattern` (src/Dialect/ONNX/Transforms/Recompose.cpp
lines 91-590). A graph is an expression: what two operations share in the graph is written twice. Whether two
expressions are the same value of the graph, how often a value is used, and what is recorded of its shape is given by
`Info`.
-/

namespace Verif.Recompose

open Verif.Rewrite

/-- A constant: with the attribute `value`, or with the attribute `value_float`. -/
inductive Cst
  | dense (t : Tensor ℝ)
  | float (v : ℝ)

/-- Expressions; `mean` is ReduceMeanV13, whose axes are an attribute. `arg` is an argument of the function or the
result of any other operator. The last operand of the normalisations is their attribute `epsilon`, if it is set. -/
inductive T
  | arg (k : ℕ)
  | cst (c : Cst)
  | un (u : NUn) (e : T)
  | bi (b : NBi) (e f : T)
  | mean (e : T) (axes : Option (List ℤ)) (keep : Bool)
  | layerNorm (e scale : T) (axis : ℤ) (eps : Option ℝ)
  | rmsNorm (e scale : T) (axis : ℤ) (eps : Option ℝ)
  | gelu (tanh : Bool) (e : T)

/-- The value of a constant. -/
def Cst.tensor : Cst → Tensor ℝ
  | .dense t => t
  | .float v => build [] fun _ => v

/-- What an expression computes. Gelu is computed with the function `g`. -/
noncomputable def T.eval (g : Bool → ℝ → ℝ) (env : ℕ → Tensor ℝ) : T → Option (Tensor ℝ)
  | .arg k => some (env k)
  | .cst c => some c.tensor
  | .un u e => (e.eval g env).bind (nunary u)
  | .bi b e f => (e.eval g env).bind fun x => (f.eval g env).bind fun y => nbinary b x y
  | .mean e axes keep => (e.eval g env).bind fun x => meanR x axes keep
  | .layerNorm e s axis eps =>
    (e.eval g env).bind fun x => (s.eval g env).bind fun s => layerNormR x s axis (eps.getD epsDefault)
  | .rmsNorm e s axis eps =>
    (e.eval g env).bind fun x => (s.eval g env).bind fun s => rmsNormR x s axis (eps.getD epsDefault)
  | .gelu b e => (e.eval g env).map fun x => x.map (g b)

/-- What the compiler knows of the graph: whether expressions are the same value, whether a value has one use, its
shape (if it has a rank; `none` for a dynamic extent), and which `arg` are arguments of the function. -/
structure Info where
  same : T → T → Bool
  oneUse : T → Bool
  shape : T → Option (List (Option ℕ))
  block : ℕ → Bool

/-- The outcome of a match: it fails, it aborts, or it succeeds. -/
inductive MRes (α : Type) where
  | fail
  | crash
  | ok (a : α)

/-- Continue after success. -/
def MRes.bind {α β : Type} : MRes α → (α → MRes β) → MRes β
  | .fail, _ => .fail
  | .crash, _ => .crash
  | .ok a, f => f a

/-- `getDefiningOp<ONNXDivOp>` and so on. -/
def T.asBi (b : NBi) : T → Option (T × T)
  | .bi b' e f => if b' = b then some (e, f) else none
  | _ => none

/-- `getDefiningOp` for an operator with one operand. -/
def T.asUn (u : NUn) : T → Option T
  | .un u' e => if u' = u then some e else none
  | _ => none

/-- `getDefiningOp<ONNXReduceMeanV13Op>` -/
def T.asMean : T → Option (T × Option (List ℤ) × Bool)
  | .mean e axes keep => some (e, axes, keep)
  | _ => none

/-! ### LayerNormalization -/

open Classical in
/-- `getFloatAsNonAffine(one)` is the literal 1.0 (IndexExprBuilder.cpp lines 201-240, 273-276). Simplified: a Concat of
constants is not looked into. -/
noncomputable def isLitOne : T → Bool
  | .cst (.dense t) => t.data.headD 0 = 1
  | _ => false

/-- Recompose.cpp lines 210-229: the dividend is a scalar 1.0. `getArraySize` (IndexExprBuilder.cpp lines 131-140)
asserts a rank below 2 and a static extent. -/
noncomputable def divOfOne (I : Info) (one : T) : MRes Unit :=
  match I.shape one with
  | none => .fail
  | some [] => if isLitOne one then .ok () else .fail
  | some [none] => .crash
  | some [some d] => if d = 1 then (if isLitOne one then .ok () else .fail) else .fail
  | some (_ :: _ :: _) => .crash

/-- What is known after the first part of the match: `scale`, `d`, `varEps` and the operations that must have one
use. -/
structure Group where
  scale : T
  d : T
  varEps : T
  ops : List T

/-- Recompose.cpp lines 165-175: norm = d / sqrt(varEps). -/
def viaDiv (scale norm d stdDev : T) : MRes Group :=
  match stdDev.asUn .sqrt with
  | none => .fail
  | some v => .ok ⟨scale, d, v, [stdDev, norm]⟩

/-- Recompose.cpp lines 185-198: norm = d * (1 / sqrt(varEps)) with Reciprocal. -/
def viaRecip (scale norm inv d stdDev : T) : MRes Group :=
  match stdDev.asUn .sqrt with
  | none => .fail
  | some v => .ok ⟨scale, d, v, [stdDev, norm, inv]⟩

/-- Recompose.cpp lines 199-231: norm = d * (1 / sqrt(varEps)) with Div. -/
noncomputable def viaOne (I : Info) (scale norm inv d one stdDev : T) : MRes Group :=
  match stdDev.asUn .sqrt with
  | none => .fail
  | some v => (divOfOne I one).bind fun _ => .ok ⟨scale, d, v, [stdDev, norm, inv]⟩

/-- Recompose.cpp lines 177-234: norm = p * q. -/
noncomputable def viaMul (I : Info) (scale norm p q : T) : MRes Group :=
  match p.asUn .recip with
  | some s => viaRecip scale norm p q s
  | none =>
    match q.asUn .recip with
    | some s => viaRecip scale norm q p s
    | none =>
      match p.asBi .div with
      | some (one, s) => viaOne I scale norm p q one s
      | none =>
        match q.asBi .div with
        | some (one, s) => viaOne I scale norm q p one s
        | none => .fail

/-- Recompose.cpp lines 165-236: the operands of the Mul are norm and scale. -/
noncomputable def group (I : Info) (a b : T) : MRes Group :=
  match a.asBi .div with
  | some (d, s) => viaDiv b a d s
  | none =>
    match b.asBi .div with
    | some (d, s) => viaDiv a b d s
    | none =>
      match a.asBi .mul with
      | some (p, q) => viaMul I b a p q
      | none =>
        match b.asBi .mul with
        | some (p, q) => viaMul I a b p q
        | none => .fail

/-- Recompose.cpp lines 364-376, the loop over the axes; `none` for the early return. -/
def scanAxes : Option ℕ → ℕ → List Bool → Option (Option ℕ)
  | found, _, [] => some found
  | none, i, b :: bs => scanAxes (if b then some i else none) (i + 1) bs
  | some a, i, b :: bs => if b then scanAxes (some a) (i + 1) bs else none

/-- Recompose.cpp lines 351-379 (`suitableAxis`). Without the attribute `axes` a null attribute is read; an axis out of
range fails an assertion. -/
def suitableAxis (axes : Option (List ℤ)) (keep : Bool) (rank : ℕ) : MRes ℕ :=
  if keep then
    match axes.map fun l => l.mapM (normAxis rank) with
    | none => .crash
    | some none => .crash
    | some (some R) =>
      match scanAxes none 0 ((List.range rank).map fun i => i ∈ R) with
      | some (some a) => .ok a
      | _ => .fail
  else .fail

/-- `isScalarTensor` (OpHelper.cpp lines 868-872). -/
def isScalarTensor (I : Info) (e : T) : Bool :=
  match I.shape e with
  | some [] => true
  | some [some 1] => true
  | _ => false

/-- Recompose.cpp lines 278-281: epsilon must be a constant; its attribute `value_float` is taken. `dyn_cast` of the
missing operation of an argument of the function fails an assertion. -/
def epsilonAttr (I : Info) : T → MRes (Option ℝ)
  | .cst (.float v) => .ok (some v)
  | .cst (.dense _) => .ok none
  | .arg k => if I.block k then .crash else .fail
  | _ => .fail

/-- Recompose.cpp lines 323-332: the axes of the mean, for an `x` with known rank; `true` for the full pattern. -/
def meanAxes (axes : Option (List ℤ)) (keep : Bool) (rank varAxis : ℕ) : MRes Bool :=
  match suitableAxis axes keep rank with
  | .fail => .ok false
  | .crash => .crash
  | .ok a => .ok (a = varAxis)

/-- Recompose.cpp lines 293-332: the operand `x` of LayerNormalization, if `d` is `x` minus its mean. -/
def fullPattern (I : Info) (varAxis : ℕ) (d : T) : MRes (Option T) :=
  match d.asBi .sub with
  | none => .ok none
  | some (x1, m) =>
    match m.asMean with
    | none => .ok none
    | some (x2, axes, keep) =>
      if I.same x1 x2 && I.oneUse m then
        match I.shape x1 with
        | none => .fail
        | some s => (meanAxes axes keep s.length varAxis).bind fun b => .ok (if b then some x1 else none)
      else .ok none

/-- Recompose.cpp lines 334-347 and 107-116: the replacement. -/
def normOp (g : Group) (varAxis : ℕ) (eps : Option ℝ) : Option T → T
  | some x => .layerNorm x g.scale varAxis eps
  | none => .rmsNorm g.d g.scale varAxis eps

/-- Recompose.cpp lines 247-347: after the variance `var`, a mean of `dd`. -/
def matchVar (I : Info) (g : Group) (var eps : T) : T × Option (List ℤ) × Bool → MRes T
  | (dd, axes, keep) =>
    match dd.asBi .mul with
    | none => .fail
    | some (d1, d2) =>
      if I.same g.d d1 && I.same g.d d2 && I.oneUse dd && I.oneUse var && I.oneUse g.varEps && g.ops.all I.oneUse &&
          isScalarTensor I eps then
        (epsilonAttr I eps).bind fun ea =>
          match I.shape dd with
          | none => .fail
          | some s => (suitableAxis axes keep s.length).bind fun a =>
            (fullPattern I a g.d).bind fun x => .ok (normOp g a ea x)
      else .fail

/-- Recompose.cpp lines 236-246: varEps is var + epsilon or epsilon + var. -/
def matchVarEps (I : Info) (g : Group) : MRes T :=
  match g.varEps.asBi .add with
  | none => .fail
  | some (p, q) =>
    match p.asMean with
    | some r => matchVar I g p q r
    | none =>
      match q.asMean with
      | some r => matchVar I g q p r
      | none => .fail

/-- Recompose.cpp lines 94-348 (`matchLayerNormPattern` and the replacement) at a Mul of `a` and `b`. -/
noncomputable def recomposeNorm (I : Info) (a b : T) : MRes T := (group I a b).bind (matchVarEps I)

/-! ### Gelu -/

/-- `constOf` (Recompose.cpp lines 434-437; `isDenseONNXConstant` and `isConstOf`, OpHelper.cpp lines 545-566,
601-609): a constant all of whose elements are the number `n`, rounded to its element type by `rnd`. -/
def ConstOf (rnd : ℝ → ℝ) (e : T) (n : ℝ) : Prop := ∃ t, e = .cst (.dense t) ∧ ∀ v ∈ t.data, v = rnd n

open Classical in
/-- `matchConstAndOp` (OpHelper.hpp.inc lines 135-149). -/
noncomputable def constAndOp {α : Type} (rnd : ℝ → ℝ) (as : T → Option α) (n : ℝ) (a b : T) : Option α :=
  if ConstOf rnd a n ∧ (as b).isSome then as b else if (as a).isSome ∧ ConstOf rnd b n then as a else none

/-- `matchValueAndOp` (OpHelper.hpp.inc lines 170-184). -/
def valueAndOp {α : Type} (I : Info) (as : T → Option α) (x a b : T) : Option α :=
  if I.same a x ∧ (as b).isSome then as b else if (as a).isSome ∧ I.same b x then as a else none

open Classical in
/-- Recompose.cpp lines 459-472 and 474-487: one factor is 0.5; the other one. -/
noncomputable def halfIn (rnd : ℝ → ℝ) (e : T) : Option T :=
  match e.asBi .mul with
  | none => none
  | some (l, r) => if ConstOf rnd l (1 / 2) then some r else if ConstOf rnd r (1 / 2) then some l else none

open Classical in
/-- Recompose.cpp lines 439-491: 0.5 * a * b. -/
noncomputable def matchHalf (rnd : ℝ → ℝ) (lhs rhs : T) : Option (T × T) :=
  match constAndOp rnd (T.asBi .mul) (1 / 2) lhs rhs with
  | some p => some p
  | none =>
    if ConstOf rnd lhs (1 / 2) ∨ ConstOf rnd rhs (1 / 2) then none
    else
      match halfIn rnd lhs with
      | some a => some (a, rhs)
      | none => (halfIn rnd rhs).map fun b => (lhs, b)

/-- Recompose.cpp lines 493-512 and 530-551: 1 + f(e) is one of the factors; the other factor is `x`. -/
noncomputable def onePlus (rnd : ℝ → ℝ) (u : NUn) (fst snd : T) : Option (T × T) :=
  match (fst.asBi .add).bind fun p => constAndOp rnd (T.asUn u) 1 p.1 p.2 with
  | some e => some (snd, e)
  | none => ((snd.asBi .add).bind fun p => constAndOp rnd (T.asUn u) 1 p.1 p.2).map fun e => (fst, e)

open Classical in
/-- Recompose.cpp lines 513-525: the operand of Erf is x / 1.41421354. -/
noncomputable def matchErf (I : Info) (rnd : ℝ → ℝ) (x e : T) : Option T :=
  match e.asBi .div with
  | none => none
  | some (p, q) => if I.same p x ∧ ConstOf rnd q 1.41421354 then some (.gelu false x) else none

open Classical in
/-- Recompose.cpp lines 554-583: the operand of Tanh is 0.797884583 * (x + 0.044715 * x^3). -/
noncomputable def matchTanh (I : Info) (rnd : ℝ → ℝ) (x e : T) : Option T :=
  (e.asBi .mul).bind fun p =>
  (constAndOp rnd (T.asBi .add) 0.797884583 p.1 p.2).bind fun p =>
  (valueAndOp I (T.asBi .mul) x p.1 p.2).bind fun p =>
  (constAndOp rnd (T.asBi .pow) 0.044715 p.1 p.2).bind fun p =>
  if I.same p.1 x ∧ ConstOf rnd p.2 3 then some (.gelu true x) else none

/-- Recompose.cpp lines 387-584 (`matchGeluPattern` and the replacement) at a Mul of `a` and `b`. -/
noncomputable def recomposeGelu (I : Info) (rnd : ℝ → ℝ) (a b : T) : MRes T :=
  match matchHalf rnd a b with
  | none => .fail
  | some (fst, snd) =>
    match onePlus rnd .erf fst snd with
    | some (x, e) => (matchErf I rnd x e).elim .fail .ok
    | none =>
      match onePlus rnd .tanh fst snd with
      | some (x, e) => (matchTanh I rnd x e).elim .fail .ok
      | none => .fail

end Verif.Recompose
