import Verif.OpStats.Spec
/-!
# Statistics of operations: the code (C126)

Models `/repo/src/Transform/WriteOpStatsToModuleAttribute.cpp`. The walk is the list of the
operations of the module. An assertion that fails, or a bad cast, is `none`.
-/
namespace Verif.OpStats

open Verif.Signature (Str lit decimal)

/-- The part of the name for an operand (WriteOpStatsToModuleAttribute.cpp:59-68). A tensor without
rank is a `ShapedType`, and `getRank` asserts that there is a rank. -/
def operandText : VTy → Option Str
  | .none => some (lit ".none")
  | .tensor s => some (lit "." ++ decimal s.length ++ lit "D")
  | .unranked => Option.none
  | .seq _ => some (lit ".unranked")
  | .other => some (lit ".unranked")

/-- The loop over the operands (WriteOpStatsToModuleAttribute.cpp:59-68). -/
def appendOperands : Str → List VTy → Option Str
  | s, [] => some s
  | s, t :: ts =>
    match operandText t with
    | none => none
    | some x => appendOperands (s ++ x) ts

/-- `isNoneValue(v) || isScalarTensor(v)` (OpHelper.cpp:868-872). `hasShapeAndRank`
(OpHelper.cpp:199-209) looks into sequences and optionals, `getRank` (TypeUtilities.cpp:60-63)
does not. -/
def scalarTest : VTy → Option Bool
  | .none => some true
  | .tensor s => some (s.length == 0 || (s.length == 1 && s.head? == some 1))
  | .unranked => some false
  | .seq true => Option.none
  | .seq false => some false
  | .other => some false

/-- `llvm::all_of`, which stops at the first one that fails. -/
def allOf : List VTy → Option Bool
  | [] => some true
  | t :: ts =>
    match scalarTest t with
    | none => none
    | some false => some false
    | some true => allOf ts

/-- The name of an operation (WriteOpStatsToModuleAttribute.cpp:54-81). -/
def opKey (op : Op) : Option Str :=
  match appendOperands op.name op.operands with
  | none => none
  | some s =>
    match allOf op.operands with
    | none => none
    | some a =>
      match allOf op.results with
      | none => none
      | some b => some (if a && b then s ++ lit ".scalar" else s)

/-- `++opCount[key]`. -/
def bump (k : Str) : List (Str × Nat) → List (Str × Nat)
  | [] => [(k, 1)]
  | (k', c) :: rest => if k' = k then (k', c + 1) :: rest else (k', c) :: bump k rest

/-- The operations that are skipped (WriteOpStatsToModuleAttribute.cpp:51-52). -/
def skipped (op : Op) : Bool :=
  decide (op.name = lit "builtin.module") || decide (op.name = lit "func.func") ||
    decide (op.name = lit "onnx.EntryPoint")

/-- The walk (WriteOpStatsToModuleAttribute.cpp:50-85). -/
def countOps : List Op → List (Str × Nat) → Option (List (Str × Nat))
  | [], m => some m
  | op :: ops, m =>
    if skipped op then countOps ops m
    else
      match opKey op with
      | none => none
      | some k => countOps ops (bump k m)

/-- `StringRef` comparison, which compares bytes. -/
def less : Str → Str → Bool
  | [], [] => false
  | [], _ :: _ => true
  | _ :: _, [] => false
  | a :: s, b :: t => decide (a.toNat < b.toNat) || (a.toNat == b.toNat && less s t)

/-- One step of a sort. -/
def insertKey (k : Str) : List Str → List Str
  | [] => [k]
  | k' :: rest => if less k k' then k :: k' :: rest else k' :: insertKey k rest

/-- `llvm::sort` of the keys (WriteOpStatsToModuleAttribute.cpp:91-92). -/
def sortKeys : List Str → List Str
  | [] => []
  | k :: ks => insertKey k (sortKeys ks)

/-- `opCount[key]`. -/
def countOf (m : List (Str × Nat)) (k : Str) : Nat :=
  match m with
  | [] => 0
  | (k', c) :: rest => if k' = k then c else countOf rest k

/-- The entries (WriteOpStatsToModuleAttribute.cpp:94-101). -/
def entries (m : List (Str × Nat)) : List Str → Str
  | [] => []
  | k :: ks =>
    [' ', ' ', '"'] ++ k ++ ['"', ' ', ':', ' '] ++ decimal (countOf m k) ++
      (if ks = [] then ['\n'] else [',', '\n']) ++ entries m ks

/-- The text of the attribute (WriteOpStatsToModuleAttribute.cpp:87-103). -/
def opStats (ops : List Op) : Option Str :=
  match countOps ops [] with
  | none => none
  | some m => some (['{', '\n'] ++ entries m (sortKeys (m.map Prod.fst)) ++ ['}', '\n'])

end Verif.OpStats
