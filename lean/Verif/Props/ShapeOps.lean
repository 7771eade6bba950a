import Verif.Rewrite.ShapeOpsLemmas
import Verif.Rewrite.Check

/-!
# C113: exposing the dimensions of tensors to shape inference keeps results

The patterns rewrite Shape into Dims and constants, move Cast, Gather, Slice and Concat into lists of dimensions, and
record better types for Reshape and ConstantOfShape. `Sound` is as in C87: a replaced fragment that has a value keeps
the value (shape and elements) and the element type, and all recorded types of the replacement are right.
-/

namespace Verif.Props

open Verif.Rewrite

variable {V : Type} [Inhabited V] (A : Alg V)

/-- Shape, with any start and end, becomes a Concat of constants and Dims. -/
theorem C113_shape : Sound A (shapeToDims A) := shapeToDims_sound

/-- Cast of dimensions becomes dimensions of Casts. -/
theorem C113_cast : Sound A (passCast A) := passCast_sound

/-- A Concat of Concats of dimensions is flattened. -/
theorem C113_concat : Sound A (passConcat A) := passConcat_sound

/-- Gather of dimensions. Missing: negative indices (`C113_gather_negative_false`), indices with more than one axis
(`C113_gather_rank_false`), results without a recorded rank. -/
theorem C113_gather_partial : SoundOn A (fun _ e => GatherPlain A e) (passGather A) := passGather_sound

/-- Slice of fewer than 2^31 dimensions, with any start, end and step. -/
theorem C113_slice_partial : SoundOn A (fun _ e => FewDims e) (passSlice A) := passSlice_sound

/-- The type recorded for Reshape is right. -/
theorem C113_reshape (isInput : ℕ → Bool) : Sound A (updateReshape A isInput) := updateReshape_sound isInput

/-- The type recorded for ConstantOfShape is right. -/
theorem C113_constant_of_shape (isInput : ℕ → Bool) : Sound A (updateConstantOfShape A isInput) :=
  updateConstantOfShape_sound isInput

/-- The patterns, each tried only where its condition holds. -/
noncomputable def shapePatterns (isInput : ℕ → Bool) : List (Ex V → Outcome V) :=
  [shapeToDims A, passCast A, passConcat A, guarded (GatherPlain A) (passGather A), guarded FewDims (passSlice A),
    updateReshape A isInput, updateConstantOfShape A isInput]

/-- Any number of these rewrites, anywhere in a fragment and in any order, keeps its value. Missing: the applications
outside the conditions. -/
theorem C113_any_rewrites_partial (isInput : ℕ → Bool) {env : ℕ → Tensor V} {e e' : Ex V}
    (h : Steps (shapePatterns A isInput) e e') (ht : Typed A env e) {v : Option (Tensor V)}
    (hv : eval A env e = some v) : eval A env e' = some v ∧ Typed A env e' := by
  refine steps_keep ?_ h ht hv
  intro r hr
  simp only [shapePatterns, List.mem_cons, List.not_mem_nil, or_false] at hr
  rcases hr with rfl | rfl | rfl | rfl | rfl | rfl | rfl
  · exact shapeToDims_sound.at env
  · exact passCast_sound.at env
  · exact passConcat_sound.at env
  · exact passGather_sound.at env
  · exact passSlice_sound.at env
  · exact (updateReshape_sound isInput).at env
  · exact (updateConstantOfShape_sound isInput).at env

/-! ### Fragments on which the patterns apply -/

/-- Argument 0 is a 5 by 7 by 2 tensor of which only the 7 is recorded, argument 1 the vector (5). -/
def dimEnv (i : ℕ) : Tensor ℤ := if i = 0 then iota [5, 7, 2] else ofInts zAlg [5]

def dimX : Ex ℤ := .arg 0 ⟨some [none, some 7, none], f32⟩
def dimA : Ex ℤ := .arg 1 (.static [1] i64)
def dimOf (k : ℤ) : Ex ℤ := .op (.dim k) [dimX] (.static [1] i64)
/-- The shape of argument 0 as a list of dimensions. -/
def dims3 : Ex ℤ := .op (.concat 0) [dimOf 0, cvec [7], dimOf 2] (.static [3] i64)

example : Applies (shapeToDims zAlg) dimEnv (.op (.shape (-2) none) [dimX] (.static [2] i64)) :=
  applies_of (by decide +kernel)
example : Applies (passCast zAlg) dimEnv (.op (.cast 1 f32) [dims3] (.static [3] f32)) :=
  applies_of (by decide +kernel)
example : Applies (passConcat zAlg) dimEnv (.op (.concat 0) [dims3, dimA] (.static [4] i64)) :=
  applies_of (by decide +kernel)
example : Applies (passGather zAlg) dimEnv (.op (.gather 0) [dims3, cvec [2, 0]] (.static [2] i64)) ∧
    GatherPlain zAlg (.op (.gather 0) [dims3, cvec [2, 0]] (.static [2] i64)) :=
  ⟨applies_of (by decide +kernel), by simp [GatherPlain, cvec, ofInts, zAlg]⟩
example : Applies (passGather zAlg) dimEnv (.op (.gather 0) [dims3, .const (scalar 1) i64] (.static [] i64)) ∧
    GatherPlain zAlg (.op (.gather 0) [dims3, .const (scalar 1) i64] (.static [] i64)) :=
  ⟨applies_of (by decide +kernel), by simp [GatherPlain, scalar, zAlg, STy.static]⟩
example : Applies (passSlice zAlg) dimEnv (.op .slice [dims3, cvec [-1], cvec [-4], cvec [0], cvec [-2]]
    (.static [2] i64)) ∧ FewDims (.op .slice [dims3, cvec [-1], cvec [-4], cvec [0], cvec [-2]] (.static [2] i64)) :=
  ⟨applies_of (by decide +kernel), by
    simp [FewDims, dims3, getDims, getDimsL, cvec, dimOf]⟩
example : Applies (updateReshape zAlg fun _ => false) dimEnv (.op (.reshape 0) [dimX,
    .op (.concat 0) [dimOf 0, cvec [7], cvec [-1]] (.static [3] i64)] ⟨some [none, none, none], f32⟩) :=
  applies_of (by decide +kernel)
example : Applies (updateConstantOfShape zAlg fun _ => false) dimEnv (.op (.constantOfShape 3 i64) [dims3]
    ⟨some [none, none, none], i64⟩) := applies_of (by decide +kernel)

/-! ### Where the property fails -/

/-- The last of three dimensions, asked for as index -1, becomes the first one. -/
theorem C113_gather_negative_false : ∃ env e, Breaks (passGather zAlg) env e :=
  ⟨dimEnv, .op (.gather 0) [dims3, .const (scalar (-1)) i64] (.static [] i64), breaks_of (by decide +kernel)⟩

/-- Index -2 makes the compiler read outside the list of dimensions. -/
theorem C113_gather_negative_crash_false : ∃ env e, Crashes (passGather zAlg) env e :=
  ⟨dimEnv, .op (.gather 0) [dims3, cvec [-2]] (.static [1] i64), crashes_of (by decide +kernel)⟩

/-- Indices with two axes: the result loses one. -/
theorem C113_gather_rank_false : ∃ env e, Breaks (passGather zAlg) env e :=
  ⟨dimEnv, .op (.gather 0) [dims3, .const ⟨[1, 2], [2, 0], rfl⟩ i64] (.static [1, 2] i64),
    breaks_of (by decide +kernel)⟩

/-- Gather with no indices makes the compiler read an input that is not there. -/
theorem C113_gather_empty_false : ∃ env e, Crashes (passGather zAlg) env e :=
  ⟨dimEnv, .op (.gather 0) [dims3, cvec []] (.static [0] i64), crashes_of (by decide +kernel)⟩

/-- So does Shape with equal start and end. -/
theorem C113_shape_empty_false : ∃ env e, Crashes (shapeToDims zAlg) env e :=
  ⟨dimEnv, .op (.shape 1 (some 1)) [dimX] (.static [0] i64), crashes_of (by decide +kernel)⟩

/-- Reshape to a shape one entry of which is an argument of the function: the compiler asks for the operation that
defines it. -/
theorem C113_reshape_input_false : ∃ env e, Crashes (updateReshape zAlg fun i => i = 1) env e :=
  ⟨dimEnv, .op (.reshape 0) [dimX, .op (.concat 0) [dimA, cvec [-1]] (.static [2] i64)] ⟨some [none, none], f32⟩,
    crashes_of (by decide +kernel)⟩

/-- The same for ConstantOfShape. -/
theorem C113_constant_of_shape_input_false : ∃ env e, Crashes (updateConstantOfShape zAlg fun i => i = 1) env e :=
  ⟨dimEnv, .op (.constantOfShape 3 i64) [.op (.concat 0) [dimA, cvec [2]] (.static [2] i64)] ⟨some [none, none], i64⟩,
    crashes_of (by decide +kernel)⟩

/-- A Slice of dimensions whose number is not recorded: bounds that are not literals are read as literals. -/
theorem C113_slice_unrecorded_false : ∃ env e, Crashes (passSlice zAlg) env e :=
  ⟨dimEnv, .op .slice [.op (.concat 0) [dimOf 0, cvec [7], dimOf 2] ⟨some [none], i64⟩, cvec [0], cvec [2], cvec [0],
    cvec [1]] ⟨some [none], i64⟩, crashes_of (by decide +kernel)⟩

end Verif.Props
