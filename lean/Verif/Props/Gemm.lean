import Verif.Krnl.GemmLemmas
import Verif.Props.Krnl

/-!
Properties of the lowerings of ONNX `Gemm`.
-/

namespace Verif.Props

open Verif.Krnl Verif.Lower

/-! ### C56: Gemm -/

/-- Specification: element `(i, k)` of a row-major `rows x cols` matrix, or of its
transpose. -/
def matElem {R : Type*} (M : ℤ → R) (trans : Bool) (rows cols : ℤ) (i k : ℤ) : R :=
  if trans then M (k * rows + i) else M (i * cols + k)

/-- Specification: the bias, broadcast to the result. -/
def biasElem {R : Type*} [Semiring R] (C : Option (Mem R)) (i j : ℤ) : R :=
  match C with
  | none => 0
  | some c => c.data (bcastIdx [i, j] c.shape)

/-- Specification: one element of `Y = alpha * A' * B' + beta * C`. -/
def gemmElem {R : Type*} [Semiring R] (aT bT : Bool) (I J K : ℤ) (α β : R) (A B : ℤ → R)
    (C : Option (Mem R)) (i j : ℤ) : R :=
  α * (∑ k ∈ Finset.Ico 0 K, matElem A aT I K i k * matElem B bT K J k j) + β * biasElem C i j

/-- Specification: `dims` is unidirectionally broadcastable to `[I, J]`. -/
def Broadcastable (dims : List ℤ) (I J : ℤ) : Prop :=
  dims.length ≤ 2 ∧ ∀ q, q < dims.length →
    dims.reverse[q]? = some 1 ∨ dims.reverse[q]? = [J, I][q]?

theorem biasOk_iff {dims : List ℤ} {I J : ℤ} : Broadcastable dims I J ↔ BiasOk I J dims := by
  unfold Broadcastable BiasOk
  refine and_congr_right fun hl => ?_
  match dims, hl with
  | [], _ => simp
  | [d], _ => simp [eq_comm]
  | [d, e], _ =>
    constructor
    · intro h
      have h0 := h 0 (by simp)
      have h1 := h 1 (by simp)
      simp at h0 h1
      simp [h0, h1]
    · intro h q hq
      simp at h
      have : q = 0 ∨ q = 1 := by simp at hq; omega
      rcases this with rfl | rfl
      · simpa using h.2
      · simpa using h.1

theorem biasVal_eq {R : Type*} [Semiring R] (β : R) (C : Option (Mem R)) {I J i j : ℤ}
    (hC : ∀ c, C = some c → Broadcastable c.shape I J)
    (hi0 : 0 ≤ i) (hi : i < I) (hj0 : 0 ≤ j) (hj : j < J) :
    biasVal β C i j = β * biasElem C i j := by
  cases C with
  | none => simp [biasVal, biasElem]
  | some c =>
    have hb := biasOk_iff.1 (hC c rfl)
    simp only [biasVal, biasElem]
    congr 2
    obtain ⟨hl, hf⟩ := hb
    generalize c.shape = dims at *
    unfold biasIdx bcastIdx
    match dims, hl, hf with
    | [], _, _ => simp
    | [d], _, hf =>
      simp at hf
      simp
      split <;> split <;> omega
    | [d, e], _, hf =>
      simp at hf
      simp
      constructor
      · split <;> split <;> omega
      · split <;> split <;> omega

/-- The optimised lowering: for every size of the three dimensions, known at compile
time or not, every combination of transpositions, with or without SIMD, any `alpha`
and `beta`, with or without a bias of any broadcastable shape, and whatever the
initial contents of the buffers, all accesses are in bounds and every element of the
result has the value of the specification. -/
theorem C56_gemm_tiled {R : Type*} [Semiring R] [DecidableEq R] (g : Gemm) (α β : R)
    (A B : ℤ → R) (C : Option (Mem R)) (garbage : GSt R) (hvl : ∃ e, g.archVL = 2 ^ e)
    (hC : ∀ c, C = some c → Broadcastable c.shape g.I.val g.J.val) :
    ∃ Y, g.tiled α β C A B garbage = some Y ∧
      ∀ i j, 0 ≤ i → i < g.I.val → 0 ≤ j → j < g.J.val →
        Y (i * g.J.val + j) =
          gemmElem g.aT g.bT g.I.val g.J.val g.K.val α β A B C i j := by
  obtain ⟨Y, h1, h2⟩ := g.tiled_spec α β C A B garbage hvl
    (fun c hc => biasOk_iff.1 (hC c hc))
  refine ⟨Y, h1, fun i j hi0 hi hj0 hj => ?_⟩
  have := h2 i j hi0 hi hj0 hj
  simp only [Gemm.rView, View.flat, zero_add] at this
  rw [this, biasVal_eq β C hC hi0 hi hj0 hj]
  unfold gemmElem matElem
  congr 2
  refine Finset.sum_congr rfl fun k _ => ?_
  unfold Gemm.opA Gemm.opB
  cases g.aT <;> cases g.bT <;> rfl

/-- The unoptimised lowering. -/
theorem C56_gemm_generic {R : Type*} [Semiring R] (g : Gemm) (α β : R)
    (A B garbage : ℤ → R) (C : Option (Mem R))
    (hC : ∀ c, C = some c → Broadcastable c.shape g.I.val g.J.val) :
    ∃ Y, g.generic α β C A B garbage = some Y ∧
      ∀ i j, 0 ≤ i → i < g.I.val → 0 ≤ j → j < g.J.val →
        Y (i * g.J.val + j) =
          gemmElem g.aT g.bT g.I.val g.J.val g.K.val α β A B C i j := by
  obtain ⟨Y, h1, h2⟩ := g.generic_spec α β C A B garbage
    (fun c hc => biasOk_iff.1 (hC c hc))
  refine ⟨Y, h1, fun i j hi0 hi hj0 hj => ?_⟩
  have := h2 i j hi0 hi hj0 hj
  simp only [Gemm.rView, View.flat, zero_add] at this
  rw [this, biasVal_eq β C hC hi0 hi hj0 hj]
  unfold gemmElem matElem
  congr 2
  refine Finset.sum_congr rfl fun k _ => ?_
  unfold Gemm.opA Gemm.opB
  cases g.aT <;> cases g.bT <;> rfl

/-- A 3 x 17 bias over a 3 x 17 result, and a vector bias of length 17. -/
example : Broadcastable [3, 17] 3 17 ∧ Broadcastable [17] 3 17 ∧ Broadcastable [1, 17] 3 17 ∧
    ¬ Broadcastable [3] 3 17 := by
  refine ⟨biasOk_iff.2 ⟨by simp, by simp⟩, biasOk_iff.2 ⟨by simp, by simp⟩,
    biasOk_iff.2 ⟨by simp, by simp⟩, fun h => ?_⟩
  have := (biasOk_iff.1 h).2
  simp at this

/-- Both variants of the optimised lowering occur. -/
example : (⟨false, true, ⟨5, true⟩, ⟨17, true⟩, ⟨9, false⟩, true, 4⟩ : Gemm).mustTileR = true ∧
    (⟨false, true, ⟨5, true⟩, ⟨32, true⟩, ⟨9, false⟩, true, 4⟩ : Gemm).mustTileR = false := by
  decide

/-- The loops of the optimised lowering are those of the schedules written in the
code: cache loops, then reduction or row loop, then register loops. -/
theorem C56_gemm_schedules :
    (∃ nest, applyAll (initNest 3) gemmScheduleR = some nest ∧ ∀ b : Box 3,
      boxes nest b = (boxes [⟨0, 32, false⟩, ⟨1, 64, false⟩] b).flatMap fun t =>
        (boxes [⟨2, 256, false⟩] t).flatMap fun t => boxes regNest t) ∧
    (∃ nest, applyAll gemmLoopsD gemmScheduleD = some nest ∧ ∀ b : Box 3,
      boxes nest b = (boxes [⟨1, 64, false⟩, ⟨2, 256, false⟩] b).flatMap fun t =>
        (boxes [⟨0, 32, false⟩] t).flatMap fun t => boxes regNest t) := by
  refine ⟨⟨_, gemmScheduleR_eq, fun b => ?_⟩, ⟨_, gemmScheduleD_eq, fun b => ?_⟩⟩
  · have e : boxes ([⟨0, 1, true⟩, ⟨1, 1, true⟩, ⟨2, 1, true⟩] : List (Lp 3)) = fun t => [t] := by
      funext t; simp [boxes]
    rw [boxes_append, boxes_append, boxes_append]
    simp [e, List.flatMap_assoc]
  · have e : boxes ([⟨1, 1, true⟩, ⟨2, 1, true⟩, ⟨0, 1, true⟩] : List (Lp 3)) = fun t => [t] := by
      funext t; simp [boxes]
    rw [boxes_append, boxes_append, boxes_append]
    simp [e, List.flatMap_assoc]

/-- Literal dimensions. -/
def lits (dims : List ℤ) : List IE := dims.map fun d => ⟨d, true⟩

/-- Shape inference on static shapes: accepted exactly when `A` and `B` are matrices
with matching inner dimensions and the bias broadcasts to the result, and then the
result is `I x J` and the reduction has the common length. -/
theorem C56_gemm_shape (aT bT : Bool) (aS bS : List ℤ) (cS : Option (List ℤ)) (s : GemmShape) :
    gemmShape aT bT (lits aS) (lits bS) (cS.map lits) = some s →
      ∃ I J K, aS = (if aT then [K, I] else [I, K]) ∧ bS = (if bT then [J, K] else [K, J]) ∧
        (∀ c, cS = some c → Broadcastable c I J) ∧
        s.I.val = I ∧ s.J.val = J ∧ s.K.val = K := by
  match aS, bS with
  | [], _ => simp [gemmShape, lits]
  | [_], _ => simp [gemmShape, lits]
  | _ :: _ :: _ :: _, _ => simp [gemmShape, lits]
  | [_, _], [] => simp [gemmShape, lits]
  | [_, _], [_] => simp [gemmShape, lits]
  | [_, _], _ :: _ :: _ :: _ => simp [gemmShape, lits]
  | [a0, a1], [b0, b1] =>
    intro h
    refine ⟨if aT then a1 else a0, if bT then b0 else b1, if aT then a0 else a1, ?_⟩
    match cS, h with
    | none, h =>
      cases aT <;> cases bT <;> simp [gemmShape, lits] at h ⊢ <;>
        obtain ⟨h1, rfl⟩ := h <;> simp [h1]
    | some [], h =>
      cases aT <;> cases bT <;> simp [gemmShape, lits] at h ⊢ <;>
        obtain ⟨h1, rfl⟩ := h <;> simp [h1, Broadcastable]
    | some [c1], h =>
      cases aT <;> cases bT <;> simp [gemmShape, lits, biasDimOk] at h ⊢ <;>
        obtain ⟨h1, h2, rfl⟩ := h <;> simp [h1, biasOk_iff, BiasOk, h2]
    | some [c0, c1], h =>
      cases aT <;> cases bT <;> simp [gemmShape, lits, biasDimOk] at h ⊢ <;>
        obtain ⟨h1, h2, rfl⟩ := h <;> simp [h1, biasOk_iff, BiasOk, h2]
    | some (_ :: _ :: _ :: _), h =>
      cases aT <;> cases bT <;> simp [gemmShape, lits] at h

/-- Conversely every legal static `Gemm` is accepted. -/
theorem C56_gemm_shape_complete (aT bT : Bool) (I J K : ℤ) (cS : Option (List ℤ))
    (hc : ∀ c, cS = some c → Broadcastable c I J) :
    (gemmShape aT bT (lits (if aT then [K, I] else [I, K])) (lits (if bT then [J, K] else [K, J]))
      (cS.map lits)).isSome = true := by
  match cS, hc with
  | none, _ => cases aT <;> cases bT <;> simp [gemmShape, lits]
  | some [], _ => cases aT <;> cases bT <;> simp [gemmShape, lits]
  | some [c1], hc =>
    have := (biasOk_iff.1 (hc _ rfl)).2
    simp at this
    cases aT <;> cases bT <;> simp [gemmShape, lits, biasDimOk, this]
  | some [c0, c1], hc =>
    have := (biasOk_iff.1 (hc _ rfl)).2
    simp at this
    cases aT <;> cases bT <;> simp [gemmShape, lits, biasDimOk, this]
  | some (_ :: _ :: _ :: _), hc =>
    have := (biasOk_iff.1 (hc _ rfl)).1
    simp at this

end Verif.Props
