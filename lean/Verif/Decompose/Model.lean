import Verif.Decompose.Spec

/-!
# Decomposition of composite operators

Models the patterns of `src/Dialect/ONNX/Transforms/Decompose.td` that take composite operators and old versions of
operators apart, `DecomposeHardSwishPattern` and `ReplaceCastLikeByCastPattern` of `Decompose.cpp`, and the pass that
applies them.

A graph is an expression: what two operations share in the graph is written twice. The operands that give axes and
shapes are represented by their values.
-/

namespace Verif.Decompose

open Verif.Rewrite

/-- The versions of Clip with operands for the bounds. -/
inductive ClipVersion
  | v11 | v12 | v13
deriving DecidableEq

/-- Expressions. Every constructor except `arg`, `none` and `cst` is an ONNX operator; `keep` and `noop` are `keepdims` and
`noop_with_empty_axes`. In `reduceV18` the first argument says whether it is ReduceMax or ReduceMin. `reduceV13` and the
operators `V11` have their axes in an attribute, and so has Clip version 6 its bounds, `max` before `min`. -/
inductive E
  | arg (k : ℕ)
  | none
  | cst (d : DT) (t : Tensor ℝ)
  | un (u : Un) (e : E)
  | bi (b : Bi) (e f : E)
  | reduce (r : Red) (e : E) (axes : Option (List ℤ)) (keep noop : Bool)
  | reduceV18 (isMax : Bool) (e : E) (axes : Option (List ℤ)) (keep noop : Bool)
  | reduceV13 (r : Red) (e : E) (axes : Option (List ℤ)) (keep : Bool)
  | squeeze (e : E) (axes : Option (List ℤ))
  | squeezeV11 (e : E) (axes : Option (List ℤ))
  | unsqueeze (e : E) (axes : List ℤ)
  | unsqueezeV11 (e : E) (axes : List ℤ)
  | softmax (e : E) (axis : ℤ)
  | logSoftmax (e : E) (axis : ℤ)
  | scaler (e : E) (off scale : Option (List ℝ))
  | hardSwish (e : E)
  | clip (v : ClipVersion) (e lo hi : E)
  | clipV6 (e : E) (max min : ℝ)
  | castLike (e f : E)
  | expand (e : E) (s : List ℤ)
  | constantOfShape (s : List ℤ) (v : Option (DT × ℝ))

/-! ### Element types: the type constraints of the operators (ONNXOps.td.inc) -/

/-- A type constraint. -/
def only (p : DT → Bool) (d : Option DT) : Option DT := d.filter p

/-- F16, F32, F64, BF16. -/
def isFloat (d : DT) : Bool := d.kind = .float

/-- Numbers. -/
def isNum (d : DT) : Bool := d.kind ≠ .bool

/-- UI32, UI64, I32, I64 and floating-point types. -/
def isRed (d : DT) : Bool := isFloat d || (isNum d && (d.bits = 32 || d.bits = 64))

/-- The types of the data of Scaler. -/
def isScaler (d : DT) : Bool := d = f32 || d = ⟨.float, 64⟩ || d = i64 || d = ⟨.sint, 32⟩

/-- Both operands have the same element type. -/
def same (d e : Option DT) : Option DT := d.bind fun a => e.bind fun b => if a = b then some a else Option.none

/-- A bound of Clip has the type of the data or is absent. -/
def boundTy (d : DT) : E → Option DT → Bool
  | .none, _ => true
  | _, t => t = some d

/-- The element type of the result of an expression; `none` if an operator does not accept the type of its operands. -/
def ty (Γ : ℕ → DT) : E → Option DT
  | .arg k => some (Γ k)
  | .none => Option.none
  | .cst d _ => some d
  | .un .abs e => only isNum (ty Γ e)
  | .un (.cast d) e => (ty Γ e).map fun _ => d
  | .un _ e => only isFloat (ty Γ e)
  | .bi _ e f => only isNum (same (ty Γ e) (ty Γ f))
  | .reduce .max e _ _ _ => ty Γ e
  | .reduce .min e _ _ _ => ty Γ e
  | .reduce _ e _ _ _ => only isRed (ty Γ e)
  | .reduceV18 _ e _ _ _ => ty Γ e
  | .reduceV13 _ e _ _ => only isRed (ty Γ e)
  | .squeeze e _ => ty Γ e
  | .squeezeV11 e _ => ty Γ e
  | .unsqueeze e _ => ty Γ e
  | .unsqueezeV11 e _ => ty Γ e
  | .softmax e _ => only isFloat (ty Γ e)
  | .logSoftmax e _ => only isFloat (ty Γ e)
  | .scaler e _ _ => (only isScaler (ty Γ e)).map fun _ => f32
  | .hardSwish e => only isFloat (ty Γ e)
  | .clip _ e lo hi =>
    (only isNum (ty Γ e)).filter fun d => boundTy d lo (ty Γ lo) && boundTy d hi (ty Γ hi)
  | .clipV6 e _ _ => only isFloat (ty Γ e)
  | .castLike e f => (ty Γ e).bind fun _ => ty Γ f
  | .expand e _ => ty Γ e
  | .constantOfShape _ v => some (v.elim f32 Prod.fst)

/-! ### Values -/

/-- The value of an optional operand. -/
def optVal : E → Option (Tensor ℝ) → Option (Option (Tensor ℝ))
  | .none, _ => some Option.none
  | _, v => v.map some

/-- What an expression computes, by the ONNX definitions of the operators. -/
noncomputable def eval (Γ : ℕ → DT) (env : ℕ → Tensor ℝ) : E → Option (Tensor ℝ)
  | .arg k => some (env k)
  | .none => Option.none
  | .cst _ t => some t
  | .un u e => (eval Γ env e).bind (unaryR u)
  | .bi b e f => (eval Γ env e).bind fun x => (eval Γ env f).bind fun y => binary (biR b) x y
  | .reduce r e axes keep noop => (eval Γ env e).bind fun x => reduceR r x axes keep noop
  | .reduceV18 isMax e axes keep noop =>
    (eval Γ env e).bind fun x => reduceR (if isMax then .max else .min) x axes keep noop
  | .reduceV13 r e axes keep => (eval Γ env e).bind fun x => reduceR r x axes keep false
  | .squeeze e axes => (eval Γ env e).bind fun x => Rewrite.squeeze x axes
  | .squeezeV11 e axes => (eval Γ env e).bind fun x => Rewrite.squeeze x axes
  | .unsqueeze e axes => (eval Γ env e).bind fun x => Rewrite.unsqueeze x axes
  | .unsqueezeV11 e axes => (eval Γ env e).bind fun x => Rewrite.unsqueeze x axes
  | .softmax e axis => (eval Γ env e).bind fun x => softmaxR x axis
  | .logSoftmax e axis => (eval Γ env e).bind fun x => logSoftmaxR x axis
  | .scaler e off scale => (eval Γ env e).bind fun x => scalerR x off scale
  | .hardSwish e => (eval Γ env e).map fun x => x.map hardSwishR
  | .clip _ e lo hi => (eval Γ env e).bind fun x => (optVal lo (eval Γ env lo)).bind fun l =>
      (optVal hi (eval Γ env hi)).bind fun h => clipR x l h
  | .clipV6 e mx mn => (eval Γ env e).map fun x => x.map fun v => min (max v mn) mx
  | .castLike e f => (eval Γ env e).bind fun x => (eval Γ env f).bind fun _ =>
      unaryR (.cast ((ty Γ f).getD f32)) x
  | .expand e s => (eval Γ env e).bind fun x =>
      if ∀ d ∈ s, 0 ≤ d then Rewrite.expand x (s.map Int.toNat) else Option.none
  | .constantOfShape s v => fillR s (v.elim 0 Prod.snd)

/-! ### Patterns -/

/-- The outcome of the patterns for an operator: none matches, a replacement, or undefined behaviour. -/
inductive Outcome
  | fail
  | into (e : E)
  | crash

/-- `createDenseArrayAttr` for floating-point numbers (Decompose.cpp 50-66): it reads the first entry to find out the
type, which is undefined for an empty list. -/
def denseFloats (l : List ℝ) : Option E :=
  if l = [] then Option.none else some (.cst f32 ⟨[l.length], l, by simp⟩)

/-- `createDenseArrayAttr` for integers (Decompose.cpp 50-56, 68-78). -/
def denseInts (l : List ℤ) : Option (List ℤ) := if l = [] then Option.none else some l

/-- `createScalarDenseAttr` of a floating-point number, always of type f32 (Decompose.cpp 86-94). -/
def scalarF32 (v : ℝ) : E := .cst f32 (build [] fun _ => v)

/-- `constantFloat32`: one axis of extent 1 (DialectBuilder.cpp 126-131). -/
def constantFloat32 (v : ℝ) : E := .cst f32 (build [1] fun _ => v)

/-- A replacement that needs a constant. -/
def Outcome.of : Option E → Outcome
  | Option.none => .crash
  | some e => .into e

/-- The patterns for the Reduce operators (Decompose.td 119-172). -/
def ruleReduce (r : Red) (e : E) (axes : Option (List ℤ)) (keep noop : Bool) : Outcome :=
  match r with
  | .l1 => .into (.reduce .sum (.un .abs e) axes keep noop)
  | .l2 => .into (.un .sqrt (.reduce .sumSquare e axes keep noop))
  | .logSum => .into (.un .log (.reduce .sum e axes keep noop))
  | .logSumExp =>
    if keep then
      .into (.bi .add (.reduce .logSum (.un .exp (.bi .sub e (.reduce .max e axes true noop))) axes keep noop)
        (.reduce .max e axes true noop))
    else
      .into (.bi .add (.reduce .logSum (.un .exp (.bi .sub e (.reduce .max e axes true noop))) axes keep noop)
        (.squeeze (.reduce .max e axes true noop) axes))
  | .sumSquare => .into (.reduce .sum (.bi .mul e e) axes keep noop)
  | _ => .fail

/-- The patterns for version 13 of the composite Reduce operators, whose axes are an attribute (Decompose.td
420-503). -/
def ruleReduceV13 (r : Red) (e : E) (axes : Option (List ℤ)) (keep : Bool) : Outcome :=
  match r with
  | .sum => .fail
  | .max => .fail
  | .min => .fail
  | _ =>
    match axes with
    | Option.none => .into (.reduce r e Option.none keep false)
    | some l => Outcome.of ((denseInts l).map fun l => .reduce r e (some l) keep false)

/-- The data of Scaler, converted to f32 unless they have this type. -/
def scalerData (Γ : ℕ → DT) (e : E) : E := if ty Γ e = some f32 then e else .un (.cast f32) e

/-- The patterns for Scaler, by decreasing benefit (Decompose.td 174-235). -/
def ruleScaler (Γ : ℕ → DT) (e : E) (off scale : Option (List ℝ)) : Outcome :=
  match off, scale with
  | Option.none, Option.none => .into (scalerData Γ e)
  | some o, Option.none => Outcome.of ((denseFloats o).map fun o => .bi .sub (scalerData Γ e) o)
  | Option.none, some s => Outcome.of ((denseFloats s).map fun s => .bi .mul (scalerData Γ e) s)
  | some o, some s => Outcome.of ((denseFloats o).bind fun o => (denseFloats s).map fun s =>
      .bi .mul (.bi .sub (scalerData Γ e) o) s)

/-- `DecomposeHardSwishPattern` (Decompose.cpp 1194-1238). The rounding of `1.0f / 6.0f` is left out like every other
rounding. -/
noncomputable def ruleHardSwish (e : E) : E :=
  .bi .mul e (.bi .max (.bi .min (.bi .add (.bi .mul e (constantFloat32 (1 / 6))) (constantFloat32 (1 / 2)))
    (constantFloat32 1)) (constantFloat32 0))

/-- Which patterns there are: `hardSwish` if the option `--decompose-op-in-onnx=HardSwish` is given; `castLike` in the
Decompose pass, but not in the hybrid pass (Decompose.cpp 1739, 1779-1793). -/
structure Patterns where
  hardSwish : Bool
  castLike : Bool

/-- The patterns for all operators. -/
noncomputable def rule (P : Patterns) (Γ : ℕ → DT) : E → Outcome
  | .reduce r e axes keep noop => ruleReduce r e axes keep noop
  -- Decompose.td 285-293
  | .reduceV18 isMax e axes keep noop => .into (.reduce (if isMax then .max else .min) e axes keep noop)
  | .reduceV13 r e axes keep => ruleReduceV13 r e axes keep
  -- Decompose.td 393-403
  | .squeezeV11 e axes =>
    match axes with
    | Option.none => .into (.squeeze e Option.none)
    | some l => Outcome.of ((denseInts l).map fun l => .squeeze e (some l))
  -- Decompose.td 405-408
  | .unsqueezeV11 e axes => Outcome.of ((denseInts axes).map fun l => .unsqueeze e l)
  | .scaler e off scale => ruleScaler Γ e off scale
  -- Decompose.td 237-239
  | .logSoftmax e axis => .into (.un .log (.softmax e axis))
  | .hardSwish e => if P.hardSwish then .into (ruleHardSwish e) else .fail
  -- Decompose.td 345-362
  | .clipV6 e mx mn => .into (.clip .v11 e (scalarF32 mn) (scalarF32 mx))
  | .clip .v11 e lo hi => .into (.clip .v12 e lo hi)
  | .clip .v12 e lo hi => .into (.clip .v13 e lo hi)
  -- Decompose.cpp 1150-1180
  | .castLike e f => if P.castLike then .into (.un (.cast ((ty Γ f).getD f32)) e) else .fail
  -- Decompose.td 506-514, Decompose.cpp 596-611
  | .constantOfShape s v => .into (.expand (.cst (v.elim f32 Prod.fst) (build [] fun _ => v.elim 0 Prod.snd)) s)
  | _ => .fail

/-- The operators that the Decompose pass marks as illegal (Decompose.cpp 1645-1690); it rewrites only these. -/
def illegal (P : Patterns) : E → Bool
  | .reduce .l1 _ _ _ _ => true
  | .reduce .l2 _ _ _ _ => true
  | .reduce .logSum _ _ _ _ => true
  | .reduce .logSumExp _ _ _ _ => true
  | .reduce .sumSquare _ _ _ _ => true
  | .reduceV18 _ _ _ _ _ => true
  | .reduceV13 .l1 _ _ _ => true
  | .reduceV13 .l2 _ _ _ => true
  | .squeezeV11 _ _ => true
  | .unsqueezeV11 _ _ => true
  | .logSoftmax _ _ => true
  | .scaler _ _ _ => true
  | .hardSwish _ => P.hardSwish
  | .clip .v11 _ _ _ => true
  | .clip .v12 _ _ _ => true
  | .clipV6 _ _ _ => true
  | .castLike _ _ => true
  | .constantOfShape _ _ => true
  | _ => false

/-- The two passes that apply the patterns. -/
inductive Pass
  | decompose | hybrid

/-- The patterns of a pass. -/
def Pass.patterns : Pass → Bool → Patterns
  | .decompose, hs => ⟨hs, true⟩
  | .hybrid, hs => ⟨hs, false⟩

/-- Whether a pass looks at an operator: `applyPartialConversion` rewrites only illegal operators (Decompose.cpp 1750),
`applyPatternsGreedily` all (ONNXHybridTransformPass.cpp 158). -/
def Pass.looks : Pass → Bool → E → Bool
  | .decompose, hs, e => illegal ⟨hs, true⟩ e
  | .hybrid, _, _ => true

/-- One rewrite of a pass, anywhere in an expression. -/
inductive Step (p : Pass) (hs : Bool) (Γ : ℕ → DT) : E → E → Prop
  | root {e e'} : p.looks hs e = true → rule (p.patterns hs) Γ e = .into e' → Step p hs Γ e e'
  | un {u e e'} : Step p hs Γ e e' → Step p hs Γ (.un u e) (.un u e')
  | bil {b e e' f} : Step p hs Γ e e' → Step p hs Γ (.bi b e f) (.bi b e' f)
  | bir {b e f f'} : Step p hs Γ f f' → Step p hs Γ (.bi b e f) (.bi b e f')
  | reduce {r e e' a k n} : Step p hs Γ e e' → Step p hs Γ (.reduce r e a k n) (.reduce r e' a k n)
  | reduceV18 {r e e' a k n} : Step p hs Γ e e' → Step p hs Γ (.reduceV18 r e a k n) (.reduceV18 r e' a k n)
  | reduceV13 {r e e' a k} : Step p hs Γ e e' → Step p hs Γ (.reduceV13 r e a k) (.reduceV13 r e' a k)
  | squeeze {e e' a} : Step p hs Γ e e' → Step p hs Γ (.squeeze e a) (.squeeze e' a)
  | squeezeV11 {e e' a} : Step p hs Γ e e' → Step p hs Γ (.squeezeV11 e a) (.squeezeV11 e' a)
  | unsqueeze {e e' a} : Step p hs Γ e e' → Step p hs Γ (.unsqueeze e a) (.unsqueeze e' a)
  | unsqueezeV11 {e e' a} : Step p hs Γ e e' → Step p hs Γ (.unsqueezeV11 e a) (.unsqueezeV11 e' a)
  | softmax {e e' a} : Step p hs Γ e e' → Step p hs Γ (.softmax e a) (.softmax e' a)
  | logSoftmax {e e' a} : Step p hs Γ e e' → Step p hs Γ (.logSoftmax e a) (.logSoftmax e' a)
  | scaler {e e' o s} : Step p hs Γ e e' → Step p hs Γ (.scaler e o s) (.scaler e' o s)
  | hardSwish {e e'} : Step p hs Γ e e' → Step p hs Γ (.hardSwish e) (.hardSwish e')
  | clipx {v e e' l h} : Step p hs Γ e e' → Step p hs Γ (.clip v e l h) (.clip v e' l h)
  | clipl {v e l l' h} : Step p hs Γ l l' → Step p hs Γ (.clip v e l h) (.clip v e l' h)
  | cliph {v e l h h'} : Step p hs Γ h h' → Step p hs Γ (.clip v e l h) (.clip v e l h')
  | clipV6 {e e' a b} : Step p hs Γ e e' → Step p hs Γ (.clipV6 e a b) (.clipV6 e' a b)
  | castLikel {e e' f} : Step p hs Γ e e' → Step p hs Γ (.castLike e f) (.castLike e' f)
  | castLiker {e f f'} : Step p hs Γ f f' → Step p hs Γ (.castLike e f) (.castLike e f')
  | expand {e e' s} : Step p hs Γ e e' → Step p hs Γ (.expand e s) (.expand e' s)

/-- Any number of rewrites. -/
def Steps (p : Pass) (hs : Bool) (Γ : ℕ → DT) : E → E → Prop := Relation.ReflTransGen (Step p hs Γ)

end Verif.Decompose
