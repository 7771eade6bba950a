import Verif.Elems.Model

/-!
# Model of reshaping a strided constant

Source: `/repo/src/Dialect/ONNX/ElementsAttr/Strides.cpp` 61-135 and `ElementsAttrBuilder.cpp` 510-540.
The two cursors `a1`, `a2` are modelled by the lists of axes not yet consumed: pairs (extent, stride)
of the source, extents of the target.
-/

namespace Verif.Elems

/-- Leading axes with zero strides, Strides.cpp 79-82: product of their extents, and the rest. -/
def takeZero : List (Nat × Nat) → Nat × List (Nat × Nat)
  | (d, 0) :: l => let r := takeZero l; (d * r.1, r.2)
  | l => (1, l)

/-- Zero strides for target axes with product at most `m`, Strides.cpp 84-89: number of axes,
product, rest. -/
def fillZero (m : Nat) : Nat → List Nat → Nat × Nat × List Nat
  | m2, d :: ds =>
    if m2 * d ≤ m then let r := fillZero m (m2 * d) ds; (r.1 + 1, r.2.1, r.2.2) else (0, m2, d :: ds)
  | m2, [] => (0, m2, [])

/-- Skipping axes of extent 1, Strides.cpp 107-110. -/
def skipOnes : List (Nat × Nat) → List (Nat × Nat)
  | (1, _) :: l => skipOnes l
  | l => l

theorem skipOnes_length (l : List (Nat × Nat)) : (skipOnes l).length ≤ l.length := by
  fun_induction skipOnes l with
  | case1 s l ih => simp; omega
  | case2 l h => simp

/-- The do-while loop over contiguous axes, Strides.cpp 103-111, entered with the axis `(d, s)`:
product of extents, last stride, rest. -/
def takeContig (d s : Nat) (l : List (Nat × Nat)) : Nat × Nat × List (Nat × Nat) :=
  match h : skipOnes l with
  | [] => (d, s, [])
  | (d', s') :: l' =>
    if s = d' * s' then
      let r := takeContig d' s' l'
      (d * r.1, r.2.1, r.2.2)
    else (d, s, (d', s') :: l')
termination_by l.length
decreasing_by
  have := skipOnes_length l
  rw [h] at this
  simp at this
  omega

theorem takeContig_length (d s : Nat) (l : List (Nat × Nat)) :
    (takeContig d s l).2.2.length ≤ l.length := by
  fun_induction takeContig d s l with
  | case1 => simp
  | case2 d l d' s' l' h r ih =>
    have := skipOnes_length l
    rw [h] at this
    simp at this
    simp only [r]
    omega
  | case3 d s l d' s' l' h =>
    have := skipOnes_length l
    rw [h] at this
    simpa using this

/-- Contiguous strides for target axes with product at most `n`, Strides.cpp 115-124: strides,
product, last total, rest. -/
def fillContig (n : Nat) : Nat → Nat → List Nat → List Nat × Nat × Nat × List Nat
  | n2, total, d :: ds =>
    if n2 * d ≤ n then
      if d = 1 then let r := fillContig n n2 total ds; (0 :: r.1, r.2)
      else let r := fillContig n (n2 * d) (total / d) ds; (total / d :: r.1, r.2)
    else ([], n2, total, d :: ds)
  | n2, total, [] => ([], n2, total, [])

theorem takeZero_length (l : List (Nat × Nat)) : (takeZero l).2.length ≤ l.length := by
  fun_induction takeZero l with
  | case1 d l r ih => simp [r]; omega
  | case2 => simp

/-- The outer loop, Strides.cpp 75-130. `none` is `std::nullopt`. -/
def reshapeLoop (l : List (Nat × Nat)) (dims : List Nat) : Option (List Nat) :=
  let z := takeZero l
  let fz := fillZero z.1 1 dims
  if fz.2.1 < z.1 then none
  else
    match h : z.2 with
    | [] => some (List.replicate fz.1 0)
    | (d, s) :: l' =>
      let c := takeContig d s l'
      let fc := fillContig c.1 1 (s * d) fz.2.2
      if fc.2.1 < c.1 then none
      else
        if c.2.2 = [] then some (List.replicate fz.1 0 ++ fc.1)
        else (reshapeLoop c.2.2 fc.2.2.2).map fun r => List.replicate fz.1 0 ++ fc.1 ++ r
termination_by l.length
decreasing_by
  have h1 := takeZero_length l
  have h2 := takeContig_length d s l'
  have h3 : (takeZero l).2 = (d, s) :: l' := h
  rw [h3] at h1
  simp at h1
  omega

/-- `reshapeStrides`, Strides.cpp 61-135. The outer `none` is the failed assertion on the number of
elements (72-73); the inner one is `std::nullopt`. -/
def reshapeStrides (shape strides newShape : List Nat) : Option (Option (List Nat)) :=
  if contiguous shape strides then some (some (defaultStrides newShape))
  else if shape.prod ≤ 1 then none
  else some (reshapeLoop (shape.zip strides) newShape)

/-- `reshape`, ElementsAttrBuilder.cpp 510-540. The two copying paths (raw bytes, or wide numbers
when there is a transformer) copy the same elements. `none` is a failed assertion. -/
def reshape {W : Type} (e : Elms W) (newShape : List Nat) : Option (Elms W) :=
  if newShape = e.shape then some e
  else
    (reshapeStrides e.shape e.strides newShape).bind fun r =>
      match r with
      | some strides => some { e with shape := newShape, strides }
      | none => e.wideNums.map (fromWideNums newShape)

end Verif.Elems
