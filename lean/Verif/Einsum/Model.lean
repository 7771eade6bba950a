import Verif.Einsum.Spec
import Verif.Rewrite.OnnxReduce
import Mathlib.Data.List.InsertIdx

/-!
# The decomposition of Einsum

Model of `src/Dialect/ONNX/Transforms/DecomposeEinsum.cpp`. The code emits ONNX operators; the model evaluates what it
emits, on operands of the static shapes that the code knows, with the ONNX definitions of these operators. `none` stands for
a failed assertion, an access out of bounds at compile time, an operator that is not defined on its operands, and a result
whose shape is not the recorded one.
-/

namespace Verif.Einsum

open Verif.Rewrite

variable {V : Type} [Inhabited V] (A : Alg V)

/-- DecomposeEinsum.cpp 98-107 (`Output`, with `einsum::Parameter`, EinsumHelper.hpp 58-61): an intermediate value with its
subscripts and its recorded shape. -/
structure Out (V : Type) where
  subs : List Char
  shape : List ℕ
  value : Tensor V

/-- The subscript of an axis. -/
def Out.sub (o : Out V) (a : ℕ) : Char := o.subs.getD a ' '

/-- The recorded extent of an axis. -/
def Out.dim (o : Out V) (a : ℕ) : ℕ := o.shape.getD a 0

/-- An operator is created with the recorded shape as its result type. -/
def typed (s : List ℕ) (t : Option (Tensor V)) : Option (Tensor V) := t.filter (·.shape = s)

/-- Constants of integers. -/
def lits (l : List ℕ) : List ℤ := l.map Nat.cast

/-- DecomposeEinsum.cpp 109-120 (`eraseAxis`, `eraseAxes`): the axes are erased in reverse order. -/
def eraseAxes {α : Type} (axes : List ℕ) (l : List α) : List α := axes.foldr (fun a l => l.eraseIdx a) l

/-- DecomposeEinsum.cpp 155-164 (`squeeze`). -/
def squeezeAxes (o : Out V) (axes : List ℕ) : Option (Out V) :=
  if axes = [] then some o
  else if ∀ a ∈ axes, o.dim a = 1 then
    (typed (eraseAxes axes o.shape) (squeeze o.value (some (lits axes)))).map fun v =>
      ⟨eraseAxes axes o.subs, eraseAxes axes o.shape, v⟩
  else none

/-- DecomposeEinsum.cpp 166-177 (`sum`). -/
def sumAxes (o : Out V) (axes : List ℕ) : Option (Out V) :=
  if axes = [] then some o
  else if ∀ a ∈ axes, o.dim a = 1 then squeezeAxes o axes
  else (typed (eraseAxes axes o.shape) (reduceSum A o.value (some (lits axes)) false false)).map fun v =>
      ⟨eraseAxes axes o.subs, eraseAxes axes o.shape, v⟩

/-- DecomposeEinsum.cpp 179-188 (`squeezeNonResults`). -/
def squeezeNonResults (res : List Char) (o : Out V) : Option (Out V) :=
  squeezeAxes o ((List.range o.subs.length).filter fun a => o.dim a = 1 ∧ o.sub a ∉ res)

/-- DecomposeEinsum.cpp 217-223: the mask as a flat array. -/
def maskValues (size d : ℕ) : Option (List Bool) :=
  (List.range d).foldlM (fun m i => if i * ((size - 1) / (d - 1)) < size then
    some (m.set (i * ((size - 1) / (d - 1))) true) else none) (List.replicate size false)

/-- DecomposeEinsum.cpp 212-216: the shape of the mask. -/
def maskShape (o : Out V) (x : Char) (d : ℕ) : List ℕ :=
  (List.range o.shape.length).map fun i => if o.sub i = x then d else 1

/-- DecomposeEinsum.cpp 224 and 498-502 (`tensor`): the mask as a tensor. -/
def maskTensor (s : List ℕ) (m : List Bool) : Option (Tensor V) :=
  if h : m.length = s.prod then some ⟨s, m.map fun b => A.ofInt (if b then 1 else 0), by simp [h]⟩ else none

/-- DecomposeEinsum.cpp 504-508 (`zeros`). -/
def zeros (s : List ℕ) : Tensor V := build s fun _ => A.ofInt 0

/-- DecomposeEinsum.cpp 207-227: keep the diagonal, and sum over the other axes. -/
def maskAndSum (o : Out V) (x : Char) (d : ℕ) (rest : List ℕ) : Option (Out V) :=
  (maskValues (maskShape o x d).prod d).bind fun m =>
    (maskTensor A (maskShape o x d) m).bind fun m =>
      (typed o.shape (where_ A.truth m o.value (zeros A []))).bind fun v => sumAxes A { o with value := v } rest

/-- DecomposeEinsum.cpp 190-228 (`diagonal`). -/
def diagonal (o : Out V) (x : Char) : Option (Out V) :=
  match (List.range o.shape.length).filter fun a => o.sub a = x with
  | a :: b :: axes =>
    if ∀ c ∈ a :: b :: axes, o.dim c = o.dim a then
      if o.dim a = 1 then squeezeAxes o (b :: axes) else maskAndSum A o x (o.dim a) (b :: axes)
    else none
  | _ => none

/-- DecomposeEinsum.cpp 122-133 (`duplicates`); the order in which the code goes through its hash table is left open. -/
def duplicates (subs : List Char) : List Char := subs.dedup.filter fun x => 1 < subs.count x

/-- DecomposeEinsum.cpp 230-235 (`diagonalize`); `order` is the order of the hash table. -/
def diagonalize (order : List Char → List Char) (o : Out V) : Option (Out V) :=
  (order (duplicates o.subs)).foldlM (diagonal A) o

/-- DecomposeEinsum.cpp 237-244 (`reduce`). -/
def reduceTo (keep : List Char) (o : Out V) : Option (Out V) :=
  sumAxes A o ((List.range o.shape.length).filter fun a => o.sub a ∉ keep)

/-- DecomposeEinsum.cpp 246-257 (`otherSubscripts`), applied to the values that are not ignored. -/
def otherSubs (res : List Char) (others : List (Out V)) : List Char := (others.flatMap Out.subs) ++ res

/-- DecomposeEinsum.cpp 66-72 (`shapePermute`). -/
def shapePermute (shape perm : List ℕ) : List ℕ := (List.range shape.length).map fun a => shape.getD (perm.getD a 0) 0

/-- DecomposeEinsum.cpp 74-80 (`transposePerm`) and 259-270 (`transpose`). -/
def transposeTo (o : Out V) (subs : List Char) : Option (Out V) :=
  if o.subs.length ≠ subs.length then none
  else if o.subs = subs then some o
  else
    let perm := subs.map o.subs.idxOf
    (typed (shapePermute o.shape perm) (transpose o.value perm)).map fun v => ⟨subs, shapePermute o.shape perm, v⟩

/-- DecomposeEinsum.cpp 51-57 (`shapeExpandDims`). -/
def expandDims (shape axes : List ℕ) : List ℕ := axes.foldl (fun s a => s.insertIdx a 1) shape

/-- DecomposeEinsum.cpp 272-286 (`unsqueeze`). -/
def unsqueezeTo (o : Out V) (subs : List Char) : Option (Out V) :=
  let axes := (List.range subs.length).filter fun a => subs.getD a ' ' ∉ o.subs
  if axes = [] then some o
  else (typed (expandDims o.shape axes) (unsqueeze o.value (lits axes))).map fun v => ⟨subs, expandDims o.shape axes, v⟩

/-- DecomposeEinsum.cpp 288-307 (`reshape`). -/
def reshapeTo (o : Out V) (shape : List ℕ) (subs : List Char) : Option (Out V) :=
  if shape.length ≠ subs.length then none
  else if o.shape = shape then some { o with subs := subs }
  else if o.shape.prod ≠ shape.prod ∨ shape.prod = 0 then none
  else (typed shape (reshape o.value false (lits shape))).map fun v => ⟨subs, shape, v⟩

/-- DecomposeEinsum.cpp 326-328: the product of two values whose axes have been aligned. `shapeBroadcast` (59-64) is MLIR's
computation of the broadcast of two shapes, modelled by its definition. -/
def mulAligned (subs : List Char) (o1 o2 : Out V) : Option (Out V) :=
  (bshape o1.shape o2.shape).bind fun s =>
    (typed s (binary (A.bin .mul) o1.value o2.value)).map fun v => ⟨subs, s, v⟩

/-- DecomposeEinsum.cpp 309-334 (`mul`, which is only called without `reduceAtEnd`). -/
def mul (o1 o2 : Out V) : Option (Out V) :=
  let shared := o2.subs.filter (· ∈ o1.subs)
  let unshared := o1.subs.filter (· ∉ o2.subs)
  (transposeTo o1 (unshared ++ shared)).bind fun o1 =>
    (unsqueezeTo o1 (unshared ++ o2.subs)).bind fun o1 => mulAligned A (unshared ++ o2.subs) o1 o2

/-- DecomposeEinsum.cpp 385-435: the product of two values of which the first `k` axes are shared and kept, the next `u` of the
first are its own, the last `r` of the first and the next `r` of the second are summed over, and the last `w` of the second
are its own. -/
def matmulAligned (keep unshared1 red unshared2 : List Char) (o1 o2 : Out V) : Option (Out V) :=
  let k := keep.length
  let u := unshared1.length
  let r := red.length
  let w := unshared2.length
  if o1.shape.length ≠ k + u + r ∨ o2.shape.length ≠ k + r + w then none
  else
    let keep1 := o1.shape.take k
    let un1 := (o1.shape.drop k).take u
    let red1 := o1.shape.drop (k + u)
    let keep2 := o2.shape.take k
    let red2 := (o2.shape.drop k).take r
    let un2 := o2.shape.drop (k + r)
    if red1 ≠ red2 then none
    else
      (reshapeTo o1 (keep1 ++ [un1.prod, red1.prod]) (keep ++ '(' :: red.take 1)).bind fun m1 =>
      (reshapeTo o2 (keep2 ++ [red1.prod, un2.prod]) (keep ++ red.take 1 ++ [')'])).bind fun m2 =>
      (bshape keep1 keep2).bind fun s =>
      (typed (s ++ [un1.prod, un2.prod]) (Rewrite.matmul A m1.value m2.value)).bind fun v =>
      reshapeTo ⟨keep ++ ['(', ')'], s ++ [un1.prod, un2.prod], v⟩ (s ++ un1 ++ un2) (keep ++ unshared1 ++ unshared2)

/-- DecomposeEinsum.cpp 336-436 (`matmul`). -/
def matmul (reducible : List Char) (o1 o2 : Out V) : Option (Out V) :=
  let keep := o1.subs.filter fun x => x ∈ o2.subs ∧ x ∉ reducible
  let red := o1.subs.filter fun x => x ∈ o2.subs ∧ x ∈ reducible
  let unshared1 := o1.subs.filter (· ∉ o2.subs)
  let unshared2 := o2.subs.filter (· ∉ o1.subs)
  if reducible.dedup.length ≠ red.length then none
  else
    (transposeTo o1 (keep ++ unshared1 ++ red)).bind fun o1 =>
    (transposeTo o2 (keep ++ red ++ unshared2)).bind fun o2 => matmulAligned A keep unshared1 red unshared2 o1 o2

/-- DecomposeEinsum.cpp 438-457 (`contract`); `others` are the other values. -/
def contract (res : List Char) (others : List (Out V)) (o1 o2 : Out V) : Option (Out V) :=
  let reducible := o2.subs.filter fun x => x ∈ o1.subs ∧ x ∉ otherSubs res others
  if reducible = [] then mul A o1 o2 else matmul A reducible o1 o2

/-- DecomposeEinsum.cpp 483-487: diagonals and sums over subscripts of single operands, one value after another; `done` are
those before. -/
def reduceAll (order : List Char → List Char) (res : List Char) (done : List (Out V)) :
    List (Out V) → Option (List (Out V))
  | [] => some done
  | o :: os => (diagonalize A order o).bind fun o => (reduceTo A (otherSubs res (done ++ os)) o).bind fun o =>
      reduceAll order res (done ++ [o]) os

/-- DecomposeEinsum.cpp 489-491: the first two values are replaced by their product until one is left. -/
def contractAll (res : List Char) : Out V → List (Out V) → Option (Out V)
  | o, [] => some o
  | o, p :: os => (contract A res os o p).bind fun o => contractAll res o os

/-- DecomposeEinsum.cpp 142-153 and 465-495 (`decompose`, `finalize` 459-463); `shape` is the inferred shape of the
result. -/
def decompose (order : List Char → List Char) (ins : List (List Char × Tensor V)) (res : List Char) (shape : List ℕ) :
    Option (Tensor V) :=
  if shape.prod = 0 ∨ ∃ p ∈ ins, p.2.shape.prod = 0 then some (zeros A shape)
  else
    (ins.mapM fun p => squeezeNonResults res ⟨p.1, p.2.shape, p.2⟩).bind fun os =>
      (reduceAll A order res [] os).bind fun os =>
        match os with
        | [] => none
        | o :: os => (contractAll A res o os).bind fun o => (transposeTo o res).map Out.value

end Verif.Einsum
