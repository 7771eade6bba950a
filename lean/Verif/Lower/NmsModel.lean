import Mathlib.Algebra.Order.Field.Basic

/-!
Model of the lowering of NonMaxSuppression.

Source: /repo/src/Conversion/ONNXToKrnl/ObjectDetection/NonMaxSuppression.cpp 23-464

Numbers are those of an ordered field: rounding is left out.  The order of the boxes is a
parameter, it is the result of `omTensorSort`, see C06.
-/

namespace Verif.Lower

variable {R : Type} [Field R] [LinearOrder R]

/-- The four numbers of a box. -/
structure Box (R : Type) where
  v0 : R
  v1 : R
  v2 : R
  v3 : R

/-- `emitIOU` (23-93): `center` is the attribute center_point_box, `eps` the constant 1e-8. -/
def emitIOU (center : Bool) (eps : R) (p q : Box R) : R :=
  let y1min := if center then p.v1 - p.v3 / 2 else p.v0
  let x1min := if center then p.v0 - p.v2 / 2 else p.v1
  let y1max := if center then p.v1 + p.v3 / 2 else p.v2
  let x1max := if center then p.v0 + p.v2 / 2 else p.v3
  let y2min := if center then q.v1 - q.v3 / 2 else q.v0
  let x2min := if center then q.v0 - q.v2 / 2 else q.v1
  let y2max := if center then q.v1 + q.v3 / 2 else q.v2
  let x2max := if center then q.v0 + q.v2 / 2 else q.v3
  let area1 := if center then p.v3 * p.v2 else (y1max - y1min) * (x1max - x1min)
  let area2 := if center then q.v3 * q.v2 else (y2max - y2min) * (x2max - x2min)
  let ixmin := max x1min x2min
  let iymin := max y1min y2min
  let ixmax := min x1max x2max
  let iymax := min y1max y2max
  let inter := max (ixmax - ixmin) 0 * max (iymax - iymin) 0
  inter / (area1 + area2 - inter + eps)

/-- `tryToUnflip` (156-205), for one box. -/
def unflip (b : Box R) : Box R :=
  ⟨if b.v0 > b.v2 then b.v2 else b.v0, if b.v1 > b.v3 then b.v3 else b.v1,
   if b.v0 > b.v2 then b.v0 else b.v2, if b.v1 > b.v3 then b.v1 else b.v3⟩

/-- The boxes after unflipping, which is only done for corners (285-288). -/
def nmsBox (center : Bool) (b : Box R) : Box R := if center then b else unflip b

/-- `suppressByScores`, counting in one class (126-141). -/
def countAbove (th : R) (score : ℕ → R) (ss : ℕ) : ℤ :=
  (List.range ss).foldl (fun n s => if score s > th then n + 1 else n) 0

/-- `suppressByScores`: the largest number over all batches and classes (118-147). -/
def effectiveMax (th : R) (scores : ℕ → ℕ → ℕ → R) (bs cs ss : ℕ) : ℤ :=
  (List.range bs).foldl (fun m b => (List.range cs).foldl (fun m c => max (countAbove th (scores b c) ss) m) m) 0

/-- The inner loop: marks the boxes that overlap too much (399-437). -/
def markRemoved (over : ℕ → Bool) (ss : ℕ) (removed : ℕ → Bool) : ℕ → Bool :=
  (List.range ss).foldl (fun r o => if !r o && over o then fun k => if k = o then true else r k else r) removed

/-- State of the loop over the boxes of one class: number of outputs of the class, removed
boxes, rows of the output written so far. -/
structure NmsState where
  cnt : ℤ
  removed : ℕ → Bool
  out : List (ℕ × ℕ × ℕ)

/-- One step of the loop over the boxes (345-438).  Rows are always stored at the number of rows written
before; storing a row that was not allocated fails, so does using a box number out of range. -/
def nmsStep (th : R) (score : ℕ → R) (over : ℕ → ℕ → Bool) (ss : ℕ) (mopc cap : ℤ) (b c : ℕ) (bi : ℕ) (s : NmsState) :
    Option NmsState :=
  if bi < ss then
    if score bi > th && decide (s.cnt < mopc) && !s.removed bi then
      if (s.out.length : ℤ) < cap then
        some ⟨s.cnt + 1, markRemoved (over bi) ss s.removed, s.out ++ [(b, c, bi)]⟩
      else none
    else some s
  else none

/-- The loop over the boxes of one class (330-440): the counter and the marks are reset. -/
def nmsClass (th : R) (score : ℕ → R) (over : ℕ → ℕ → Bool) (ss : ℕ) (mopc cap : ℤ) (b c : ℕ) (order : List ℕ)
    (out : List (ℕ × ℕ × ℕ)) : Option (List (ℕ × ℕ × ℕ)) :=
  (order.foldlM (fun s bi => nmsStep th score over ss mopc cap b c bi s) ⟨0, fun _ => false, out⟩).map NmsState.out

/-- The lowering (208-464).  Allocating a negative number of rows fails. -/
def nms (center : Bool) (eps th iouTh : R) (maxOut : ℤ) (bs cs ss : ℕ) (boxes : ℕ → ℕ → Box R) (scores : ℕ → ℕ → ℕ → R)
    (order : ℕ → ℕ → List ℕ) : Option (List (ℕ × ℕ × ℕ)) :=
  let mopc := min (min maxOut ss) (effectiveMax th scores bs cs ss)
  let cap := bs * cs * mopc
  if cap < 0 then none
  else
    (List.range bs).foldlM (fun out b => (List.range cs).foldlM (fun out c =>
      nmsClass th (scores b c)
        (fun s o => decide (emitIOU center eps (nmsBox center (boxes b s)) (nmsBox center (boxes b o)) ≥ iouTh))
        ss mopc cap b c (order b c) out) out) []

end Verif.Lower
