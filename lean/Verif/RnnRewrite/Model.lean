import Verif.RnnRewrite.Spec

/-!
# `RNNOpRewriteLayoutPattern` and `RNNOpRewriteSeqLenPattern` (model)

Source: /repo/src/Dialect/ONNX/ONNXOps/Canonicalize.cpp 1012-1180. A node of the graph has operands, which are values of
the graph or transposed values, and transposes between its results and their users. The type of a value records its
shape, with `none` for an unknown extent, or no shape at all. `sequence_lens` has another element type than the other
operands, so that the search for it among the operands (1168-1174) finds it and nothing else.
-/

namespace Verif.RnnRewrite

open Verif.Rewrite

variable {V : Type} [Inhabited V]

/-- The recorded type of a value. -/
abbrev Ty := Option (List (Option ℕ))

/-- An operand: a value with its recorded shape, possibly transposed. -/
structure Operand where
  name : ℕ
  ty : Ty
  perm : Option (List ℕ) := none
deriving DecidableEq

/-- An RNN, GRU or LSTM in a graph. -/
structure Node where
  lstm : Bool
  layout : ℤ
  x : Operand
  lens : Option Operand
  h0 : Option Operand
  c0 : Option Operand
  /-- the transposes inserted after the results Y, Y_h and Y_c -/
  after : Option (List ℕ × List ℕ × List ℕ) := none
deriving DecidableEq

/-- Values of the graph. -/
structure Env (V : Type) where
  value : ℕ → Tensor V
  ints : ℕ → Tensor ℕ

/-- The value of an operand. -/
def Operand.eval (env : Env V) (o : Operand) : Option (Tensor V) := match o.perm with
  | none => some (env.value o.name)
  | some p => transpose (env.value o.name) p

/-- The value of an optional operand. -/
def evalOpt (env : Env V) : Option Operand → Option (Option (Tensor V))
  | none => some none
  | some o => (o.eval env).map some

/-- The results as their users see them; only LSTM has the third. -/
def transposeResults (lstm : Bool) (after : Option (List ℕ × List ℕ × List ℕ)) (r : Tensor V × Tensor V × Tensor V) :
    Option (Tensor V × Tensor V × Option (Tensor V)) := match after with
  | none => some (r.1, r.2.1, if lstm then some r.2.2 else none)
  | some (p, q, s) => (transpose r.1 p).bind fun a => (transpose r.2.1 q).bind fun b =>
      if lstm then (transpose r.2.2 s).map fun c => (a, b, some c) else some (a, b, none)

/-- The results of a node as their users see them. RNN and GRU have no initial cell state. -/
noncomputable def Node.eval (r : Recurrence V) (env : Env V) (n : Node) :
    Option (Tensor V × Tensor V × Option (Tensor V)) :=
  (n.x.eval env).bind fun X => (evalOpt env n.h0).bind fun h0 =>
    (evalOpt env (if n.lstm then n.c0 else none)).bind fun c0 =>
      (recurrent r (n.layout ≠ 0) X (n.lens.map fun o => env.ints o.name) h0 c0).bind (transposeResults n.lstm n.after)

/-- `transposeInput`, 1037-1044. -/
def Operand.transposed (o : Operand) (p : List ℕ) : Operand := 
  { o with perm := some p, ty := o.ty.map fun s => p.map fun a => s.getD a none }

/-- `perm3RNN` and `perm4RNN`, 1026-1030. -/
def perm3 : List ℕ := [1, 0, 2]

def perm4 : List ℕ := [2, 0, 1, 3]

/-- `RNNOpRewriteLayoutPattern::matchAndRewrite`, 1077-1115. The operands of a fresh node are not transposed yet. -/
def rewriteLayout (n : Node) : Option Node :=
  if n.layout = 0 then none
  else some { n with
    x := n.x.transposed perm3
    h0 := n.h0.map (·.transposed perm3)
    c0 := if n.lstm then n.c0.map (·.transposed perm3) else n.c0
    layout := 0
    after := some (perm4, perm3, perm3) }

/-- `shape[1] == 1` for a ranked type, 1144-1146 and 1153-1155. -/
def oneAt1 : Ty → Bool
  | some s => s[1]? = some (some 1)
  | none => false

/-- `shape.size() == 1 && shape[0] == 1`, 1148-1151. -/
def oneElement : Ty → Bool
  | some s => s = [some 1]
  | none => false

/-- `RNNOpRewriteSeqLenPattern::matchAndRewrite`, 1126-1178. -/
def rewriteSeqLen (n : Node) : Option Node :=
  match n.lens with
  | none => none
  | some l =>
    if oneAt1 n.x.ty || oneElement l.ty || (n.h0.map fun h => oneAt1 h.ty).getD false then some { n with lens := none }
    else none

end Verif.RnnRewrite
