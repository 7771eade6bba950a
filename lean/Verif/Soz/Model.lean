import Verif.Soz.Spec
/-!
# Tensors with rows of ones and zeros: the code (C130)

Models `omTensorCreateSozData`, `/repo/src/Runtime/OMTensorHelper.cpp:212-297`. The dimensions are not
negative, which the only caller has checked (C129). Elements are counted, not bytes, and sizes do not
exceed 64 bits. Memory can always be allocated.
-/
namespace Verif.Soz

/-- `fillOnes` (OMTensorHelper.cpp:243-246); none for a write outside of the buffer. -/
def fillOnes (buf : List Nat) (p : Nat) : Nat → Option (List Nat)
  | 0 => some buf
  | n + 1 => if p < buf.length then fillOnes (buf.set p 1) (p + 1) n else none

/-- The cases of the switch (OMTensorHelper.cpp:251-288). -/
def handled (type : Nat) : Bool :=
  [9, 3, 2, 5, 4, 6, 12, 7, 13, 1, 11].contains type

/-- The number of ones of a row (OMTensorHelper.cpp:238, 249); `dist` is what the distribution gives. -/
def ones (count : Int) (inner : Nat) (dist : Nat → Nat) (row : Nat) : Nat :=
  if count < 0 then dist row else min count.toNat inner

/-- The loop over rows (OMTensorHelper.cpp:248-289): from `row` on, `left` rows. -/
def rowLoop (inner : Nat) (n : Nat → Nat) : Nat → Nat → List Nat → Option (List Nat)
  | 0, _, buf => some buf
  | left + 1, row, buf =>
    match fillOnes buf (row * inner) (n row) with
    | none => none
    | some b => rowLoop inner n left (row + 1) b

/-- The bound of the distribution (OMTensorHelper.cpp:232-233), which starts at 1. -/
def distMax (inner : Nat) : Nat := if inner > 1 then inner - 1 else 1

/-- `numRows` (OMTensorHelper.cpp:219-221). -/
def rows (shape : List Nat) : Nat := shape.dropLast.foldl (· * ·) 1

/-- `omTensorCreateSozData` (OMTensorHelper.cpp:214-297). -/
def create (shape : List Nat) (type : Nat) (count : Int) (dist : Nat → Nat) : Outcome :=
  match shape.getLast? with
  | none => .null
  | some inner =>
    if handled type then
      match rowLoop inner (ones count inner dist) (rows shape) 0
          (List.replicate (rows shape * inner) 0) with
      | none => .fault
      | some data => .made data
    else .null

end Verif.Soz
