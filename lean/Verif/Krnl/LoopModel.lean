import Mathlib.Data.Int.Interval
import Mathlib.Data.List.Sort
import Mathlib.Logic.Function.Basic

/-!
Model of krnl loop schedules: `krnl.define_loops`, `krnl.block`, `krnl.permute`,
`krnl.iterate` and their lowering to affine loops.

Source: /repo/src/Conversion/KrnlToAffine/ConvertKrnlToAffine.cpp
* 369-622  `lowerIterateOp`  : one unit-step `affine.for` per bound pair, in order
* 684-716  `KrnlBlockOp`     : `tilePerfectlyNested`, trivialised unused inner loop
* 717-738  `KrnlPermuteOp`   : `permuteLoops`
* 739-809  `KrnlParallelOp`  : `affine.parallel` with the bounds and step of the loop

`tilePerfectlyNested` and `permuteLoops` belong to MLIR.  Their contracts are the
documented ones: tiling a loop of step `s` over `[lo, hi)` by `T` gives an outer
loop over the same range with step `s * T` and an inner loop from the outer
induction variable to the minimum of that variable plus `s * T` and `hi`, with
step `s`; permuting moves loop `i` to position `map[i]`.
-/

namespace Verif.Krnl

/-- One `affine.for` (or `affine.parallel`) of a lowered nest: the original loop
it was derived from, its step, and whether it was trivialised to `[0, 1)`
(ConvertKrnlToAffine.cpp 696-705). -/
structure Lp (n : ℕ) where
  dim : Fin n
  step : ℕ
  triv : Bool := false
deriving DecidableEq

/-- The half-open range of each original loop that remains to be covered. -/
abbrev Box (n : ℕ) := Fin n → ℤ × ℤ

/-- Values taken by the induction variable of `affine.for lo to hi step s`. -/
def starts (lo hi : ℤ) (s : ℕ) : List ℤ :=
  (List.range (((hi - lo).toNat + (s - 1)) / s)).map fun (k : ℕ) => lo + (k : ℤ) * (s : ℤ)

/-- Execution of a nest, outermost loop first, from the ranges `b`: the list of
ranges current when the body runs, in execution order.  The bounds of a loop
derived from dimension `d` are the current range of `d`: the original bounds for
the outermost one (lines 402-407), `[iv, min (iv + step, hi))` of the enclosing
one for the others (`tilePerfectlyNested`).  A trivialised loop runs its body
once and its induction variable is unused (lines 696-705). -/
def boxes {n : ℕ} : List (Lp n) → Box n → List (Box n)
  | [], b => [b]
  | l :: ls, b =>
    if l.triv then boxes ls b
    else (starts (b l.dim).1 (b l.dim).2 l.step).flatMap fun x =>
      boxes ls (Function.update b l.dim (x, min (x + l.step) (b l.dim).2))

/-- The values of the induction variables seen by the body, per dimension: the
innermost induction variable of each dimension is the low end of its range. -/
def visits {n : ℕ} (nest : List (Lp n)) (b : Box n) : List (Fin n → ℤ) :=
  (boxes nest b).map fun c d => (c d).1

/-- The nest produced by `lowerIterateOp` before any transformation: one
unit-step loop per original loop, in order (lines 385-417). -/
def initNest (n : ℕ) : List (Lp n) :=
  (List.finRange n).map fun d => { dim := d, step := 1 }

/-- A schedule operation: `krnl.block` of the loop at position `p` (with whether
its inner result is used), or `krnl.permute` with its map attribute. -/
inductive SOp where
  | block (p T : ℕ) (innerUsed : Bool)
  | permute (map : List ℕ)

/-- `KrnlBlockOp` (lines 684-716) on the loop at position `p`. -/
def blockAt {n : ℕ} : List (Lp n) → ℕ → ℕ → Bool → Option (List (Lp n))
  | [], _, _, _ => none
  | l :: ls, 0, T, used =>
    some ({ l with step := l.step * T } ::
      { l with triv := !used } :: ls)
  | l :: ls, p + 1, T, used => (blockAt ls p T used).map (l :: ·)

/-- `permuteLoops` (lines 717-738): the loop at position `i` moves to position
`map[i]`. -/
def permuteNest {n : ℕ} (nest : List (Lp n)) (map : List ℕ) : Option (List (Lp n)) :=
  (List.range nest.length).mapM fun q => (map.idxOf? q).bind fun i => nest[i]?

/-- The loops of dimension `d`, outermost first. -/
def chain {n : ℕ} (nest : List (Lp n)) (d : Fin n) : List (Lp n) :=
  nest.filter fun l => l.dim = d

/-- One schedule operation.  `none` stands for a schedule the lowering rejects or
for invalid IR: a tile size of 0, a missing or trivialised loop, a map that is
not a permutation, or an order in which a loop would be outside the loop its
bounds mention. -/
def applyOp {n : ℕ} (nest : List (Lp n)) : SOp → Option (List (Lp n))
  | .block p T used =>
    if T = 0 ∨ (nest[p]?.map Lp.triv) ≠ some false then none
    else blockAt nest p T used
  | .permute map =>
    (permuteNest nest map).bind fun nest' =>
      if nest'.Perm nest ∧ ∀ d, chain nest' d = chain nest d then some nest' else none

/-- A whole schedule applied to the loops of one `krnl.iterate`. -/
def applyAll {n : ℕ} (nest : List (Lp n)) : List SOp → Option (List (Lp n))
  | [] => some nest
  | o :: os => (applyOp nest o).bind fun nest' => applyAll nest' os

/-- A nest in which the loops marked `true` were recreated by the lowering of a
nested iterate that carries values (`lowerIterateOp`, lines 484-509): the new
`affine.for` takes the bounds of the old one and the literal step 1, while the
bounds of the loops inside it are unchanged. -/
def boxesRec {n : ℕ} : List (Lp n × Bool) → Box n → List (Box n)
  | [], b => [b]
  | l :: ls, b =>
    if l.1.triv then boxesRec ls b
    else (starts (b l.1.dim).1 (b l.1.dim).2 (if l.2 then 1 else l.1.step)).flatMap fun x =>
      boxesRec ls (Function.update b l.1.dim (x, min (x + l.1.step) (b l.1.dim).2))

/-- Values of the induction variables seen by the body of such a nest. -/
def visitsRec {n : ℕ} (nest : List (Lp n × Bool)) (b : Box n) : List (Fin n → ℤ) :=
  (boxesRec nest b).map fun c d => (c d).1

/-- Whether a schedule keeps the inner result of every block. -/
def SOp.used : SOp → Bool
  | .block _ _ u => u
  | .permute _ => true

/-- Whether an operation is a block. -/
def SOp.isBlock : SOp → Bool
  | .block _ _ _ => true
  | .permute _ => false

end Verif.Krnl
