import Verif.Rewrite.OnnxArith

/-!
# Graph fragments and what a sound rewrite is

The graph rewrites of the compiler look at an operation together with the operations that define its
operands. Such a fragment is a term: arguments (values defined elsewhere), constants and operations, each
with the static type that the compiler has recorded for its result. `eval` gives a term its ONNX meaning.
-/

namespace Verif.Rewrite

/-- A static tensor type: no rank known, or a list of extents each of which may be dynamic. -/
structure STy where
  dims : Option (List (Option ℕ))
  elt : DT
deriving DecidableEq, Repr

/-- A run-time shape is described by a list of static extents. -/
def FitsDims : List (Option ℕ) → List ℕ → Prop :=
  List.Forall₂ fun d n => d = none ∨ d = some n

/-- A run-time shape is described by a static type. -/
def STy.Fits (ty : STy) (s : List ℕ) : Prop := ∀ ds, ty.dims = some ds → FitsDims ds s

/-- A type about whose shape nothing is known. -/
def STy.unranked (e : DT) : STy := ⟨none, e⟩

/-- A completely static type. -/
def STy.static (s : List ℕ) (e : DT) : STy := ⟨some (s.map some), e⟩

/-- ONNX operators, with their attributes. -/
inductive Op
  /-- a unary element-wise operator with its numeric attributes -/
  | unary (name : String) (attrs : List ℚ)
  | cast (saturate : ℤ) (dst : DT)
  | binary (b : Bin)
  | transpose (perm : Option (List ℤ))
  | reshape (allowzero : ℤ)
  | squeeze
  | unsqueeze
  | squeezeV11 (axes : Option (List ℤ))
  | unsqueezeV11 (axes : List ℤ)
  | concat (axis : ℤ)
  | slice
  | expand
  | tile
  /-- result number `i` of Split -/
  | split (axis : ℤ) (i : ℕ)
  | identity
  /-- `onnx.Dim`: the extent of an axis as a tensor of one element -/
  | dim (axis : ℤ)
  /-- Shape with `start` and an optional `end` -/
  | shape (start : ℤ) (stop : Option ℤ)
  | size
  | where_
  | matmul
  | gemm (alpha beta : ℚ) (transA transB : ℤ)
  | conv (attrs : WinAttrs)
  | maxPool (attrs : WinAttrs)
  /-- BatchNormalization in inference mode -/
  | batchNorm (eps : ℚ)
  /-- result Y of LayerNormalization -/
  | layerNorm (axis : ℤ) (eps : ℚ)
  | instanceNorm (eps : ℚ)
  /-- GroupNormalization, version 18 or 21 -/
  | groupNorm (v18 : Bool) (groups : ℕ) (eps : ℚ)
  | clip
  | gather (axis : ℤ)
  /-- ConstantOfShape with its value and the element type of that -/
  | constantOfShape (value : ℚ) (elt : DT)
deriving DecidableEq

/-- Graph fragments. -/
inductive Ex (V : Type)
  | none
  | arg (i : ℕ) (ty : STy)
  | const (t : Tensor V) (elt : DT)
  | op (o : Op) (args : List (Ex V)) (ty : STy)

variable {V : Type}

/-- The static type of a value; the type of `none` is not a tensor type. -/
def Ex.ty : Ex V → STy
  | .none => .unranked ⟨.bool, 0⟩
  | .arg _ ty => ty
  | .const t e => .static t.shape e
  | .op _ _ ty => ty

/-- The integers stored in a one-dimensional tensor. -/
def ints (A : Alg V) (t : Tensor V) : Option (List ℤ) :=
  if t.shape.length = 1 then some (t.data.map A.toInt) else none

/-- A one-dimensional tensor of integers. -/
def ofInts (A : Alg V) (l : List ℤ) : Tensor V :=
  ⟨[l.length], l.map A.ofInt, by simp⟩

/-- A tensor without axes. -/
def scalar (v : V) : Tensor V := ⟨[], [v], rfl⟩

/-- Bounds of a range of positions as in Shape: negative ones count from the end, clamped. -/
def clampPos (r : ℕ) (a : ℤ) : ℕ := (max 0 (min (if a < 0 then a + r else a) r)).toNat

variable [Inhabited V]

/-- Optional operand holding integers. -/
def optInts (A : Alg V) : Option (Tensor V) → Option (Option (List ℤ))
  | none => some none
  | some t => (ints A t).map some

/-- The ONNX meaning of an operation; `none` when there is no result. -/
def sem (A : Alg V) : Op → List (Option (Tensor V)) → Option (Tensor V)
  | .unary n a, [some x] => some (x.map (A.un n a))
  | .cast _ d, [some x] => some (x.map (A.cast d))
  | .binary b, [some x, some y] => binary (A.bin b) x y
  | .transpose p, [some x] => (permOf x.shape.length p).bind (transpose x)
  | .reshape az, [some x, some s] => (ints A s).bind (reshape x (az != 0))
  | .squeeze, [some x, s] => (optInts A s).bind (squeeze x)
  | .unsqueeze, [some x, some s] => (ints A s).bind (unsqueeze x)
  | .squeezeV11 ax, [some x] => squeeze x ax
  | .unsqueezeV11 ax, [some x] => unsqueeze x ax
  | .concat axis, vs => (vs.mapM id).bind fun ts => concat ts axis
  | .slice, [some x, some s, some e, ax, st] =>
    (ints A s).bind fun s => (ints A e).bind fun e => (optInts A ax).bind fun ax =>
      (optInts A st).bind fun st => slice x s e ax st
  | .expand, [some x, some s] =>
    (ints A s).bind fun s => if ∀ d ∈ s, 0 ≤ d then expand x (s.map Int.toNat) else none
  | .tile, [some x, some r] => (ints A r).bind (tile x)
  | .split axis i, [some x, some s] => (ints A s).bind fun s => splitOut x axis s i
  | .identity, [some x] => some x
  | .dim axis, [some x] => (normAxis x.shape.length axis).map fun a =>
      ofInts A [(x.shape.getD a 0 : ℕ)]
  | .shape start stop, [some x] =>
      some (ofInts A (((x.shape.take (clampPos x.shape.length
        (stop.getD x.shape.length))).drop (clampPos x.shape.length start)).map
          fun (d : ℕ) => (d : ℤ)))
  | .size, [some x] => some (scalar (A.ofInt x.shape.prod))
  | .where_, [some c, some x, some y] => where_ A.truth c x y
  | .matmul, [some a, some b] => matmul A a b
  | .gemm alpha beta ta tb, [some a, some b, c] => gemm A alpha beta (ta != 0) (tb != 0) a b c
  | .conv w, [some x, some k, b] => conv A w x k b
  | .maxPool w, [some x] => maxPool A w x
  | .batchNorm eps, [some x, some s, some b, some m, some v] => batchNorm A eps x s b m v
  | .layerNorm ax eps, [some x, some s, b] => layerNorm A ax eps x s b
  | .instanceNorm eps, [some x, some s, some b] => instanceNorm A eps x s b
  | .groupNorm v18 g eps, [some x, some s, some b] => groupNorm A v18 g eps x s b
  | .clip, [some x, lo, hi] => clip A x lo hi
  | .gather axis, [some x, some i] => gather x i.shape (fun j => A.toInt (i.get j)) axis
  | .constantOfShape c _, [some s] =>
    (ints A s).bind fun s => if ∀ d ∈ s, 0 ≤ d then some (build (s.map Int.toNat) fun _ => A.ofRat c) else none
  | _, _ => none

mutual
/-- The meaning of a fragment, given the values of its arguments: no result, no value (`some none`), or a
tensor. -/
def eval (A : Alg V) (env : ℕ → Tensor V) : Ex V → Option (Option (Tensor V))
  | .none => some none
  | .arg i _ => some (some (env i))
  | .const t _ => some (some t)
  | .op o args _ => (evalL A env args).bind fun vs => (sem A o vs).map some
/-- The meaning of a list of operands. -/
def evalL (A : Alg V) (env : ℕ → Tensor V) : List (Ex V) → Option (List (Option (Tensor V)))
  | [] => some []
  | e :: es => (eval A env e).bind fun v => (evalL A env es).map (v :: ·)
end

/-- The element type of a result is the one the operator prescribes, as checked by the verifiers of the
dialect. -/
def EltOk : Op → List STy → DT → Prop
  | .unary n _, a :: _, r => if n = "IsNaN" then r.kind = .bool else r = a.elt
  | .cast _ d, _, r => r = d
  | .binary b, [x, y], r =>
    match b with
    | .equal | .less | .greater => x.elt = y.elt ∧ r.kind = .bool
    | .pow => r = x.elt
    | _ => x.elt = y.elt ∧ r = x.elt
  | .concat _, as, r => ∀ a ∈ as, r = a.elt
  | .reshape _, [x, s], r => r = x.elt ∧ s.elt = i64
  | .dim _, _, r => r = i64
  | .shape _ _, _, r => r = i64
  | .size, _, r => r = i64
  | .constantOfShape _ d, _, r => r = d
  | .where_, [_, x, y], r => r = x.elt ∧ r = y.elt
  | .matmul, [a, b], r => a.elt = b.elt ∧ r = a.elt
  | .gemm _ _ _ _, a :: b :: _, r => a.elt = b.elt ∧ r = a.elt
  | .conv _, x :: w :: _, r => x.elt = w.elt ∧ r = x.elt
  | _, a :: _, r => r = a.elt
  | _, _, _ => True

mutual
/-- Every recorded static type describes the run-time shape of its value and has the right element type. -/
def Typed (A : Alg V) (env : ℕ → Tensor V) : Ex V → Prop
  | .none => True
  | .arg i ty => ty.Fits (env i).shape
  | .const _ _ => True
  | .op o args ty =>
    (∀ t, eval A env (.op o args ty) = some (some t) → ty.Fits t.shape) ∧
      EltOk o (args.map Ex.ty) ty.elt ∧ TypedL A env args
def TypedL (A : Alg V) (env : ℕ → Tensor V) : List (Ex V) → Prop
  | [] => True
  | e :: es => Typed A env e ∧ TypedL A env es
end

/-- What happens when a rewrite pattern is tried on an operation. -/
inductive Outcome (V : Type)
  /-- the pattern does not apply -/
  | skip
  /-- a failed assertion or an access out of bounds inside the compiler -/
  | crash
  /-- the operation is replaced -/
  | into (e : Ex V)

/-- A rewrite pattern keeps results: whenever it replaces a fragment that has a value, the replacement has
the same value (shape and elements) and the same element type, and the static types recorded in it are
right. -/
def Sound (A : Alg V) (rule : Ex V → Outcome V) : Prop :=
  ∀ (env : ℕ → Tensor V) (e e' : Ex V), rule e = .into e' → Typed A env e →
    ∀ v, eval A env e = some v → eval A env e' = some v ∧ Typed A env e' ∧ e'.ty.elt = e.ty.elt

/-- The same, for the fragments that satisfy a condition. -/
def SoundOn (A : Alg V) (P : (ℕ → Tensor V) → Ex V → Prop) (rule : Ex V → Outcome V) : Prop :=
  ∀ (env : ℕ → Tensor V) (e e' : Ex V), rule e = .into e' → Typed A env e → P env e →
    ∀ v, eval A env e = some v → eval A env e' = some v ∧ Typed A env e' ∧ e'.ty.elt = e.ty.elt

/-- The same, for given values of the arguments. -/
def SoundAt (A : Alg V) (env : ℕ → Tensor V) (rule : Ex V → Outcome V) : Prop :=
  ∀ (e e' : Ex V), rule e = .into e' → Typed A env e →
    ∀ v, eval A env e = some v → eval A env e' = some v ∧ Typed A env e' ∧ e'.ty.elt = e.ty.elt

omit [Inhabited V] in
open Classical in
/-- A pattern tried only on the fragments that satisfy a condition. -/
noncomputable def guarded (P : Ex V → Prop) (rule : Ex V → Outcome V) : Ex V → Outcome V :=
  fun e => if P e then rule e else .skip

mutual
/-- One rewrite somewhere in a fragment: at the top or inside an operand. -/
inductive Step (rules : List (Ex V → Outcome V)) : Ex V → Ex V → Prop
  | top {r e e'} : r ∈ rules → r e = .into e' → Step rules e e'
  | inside {o as bs ty} : StepL rules as bs → Step rules (.op o as ty) (.op o bs ty)
inductive StepL (rules : List (Ex V → Outcome V)) : List (Ex V) → List (Ex V) → Prop
  | head {e e' es} : Step rules e e' → StepL rules (e :: es) (e' :: es)
  | tail {e es es'} : StepL rules es es' → StepL rules (e :: es) (e :: es')
end

/-- Any number of rewrites, anywhere, in any order. -/
inductive Steps (rules : List (Ex V → Outcome V)) : Ex V → Ex V → Prop
  | refl {e} : Steps rules e e
  | step {e f g} : Step rules e f → Steps rules f g → Steps rules e g

end Verif.Rewrite
