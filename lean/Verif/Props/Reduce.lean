import Verif.Lower.ReduceFull
import Mathlib.Algebra.Group.Fin.Basic

/-!
C58: ReduceSum, ReduceMean, ReduceProd, ReduceMax and ReduceMin compute the reduction of
ONNX, whatever code is chosen: scalar loops with compile-time or run-time axes, SIMD
reductions of the innermost dimensions with or without a horizontal instruction, and the
sequential or parallel reduction of a whole tensor.
-/

namespace Verif.Props

open Verif.Lower
open Verif.Krnl (Buf IE)

variable {R : Type*}

/-- Integers modulo 256. -/
def ui8 : NumOps (Fin 256) where
  add := (· + ·)
  mul := (· * ·)
  max := fun a b => if a ≤ b then b else a
  min := fun a b => if a ≤ b then a else b
  div := (· / ·)
  zero := 0
  one := 1
  negInf := 0
  posInf := 255
  ofInt := fun z => ⟨(z % 256).toNat, by omega⟩

/-- Integers between -100 and 100. -/
def smallInt : NumOps ℤ where
  add := (· + ·)
  mul := (· * ·)
  max := max
  min := min
  div := (· / ·)
  zero := 0
  one := 1
  negInf := -100
  posInf := 100
  ofInt := id

theorem ui8_laws_sum : Laws ui8 .sum :=
  ⟨add_assoc (G := Fin 256), add_comm (G := Fin 256), Fin.zero_add⟩
theorem ui8_laws_mean : Laws ui8 .mean :=
  ⟨add_assoc (G := Fin 256), add_comm (G := Fin 256), Fin.zero_add⟩
theorem ui8_laws_prod : Laws ui8 .prod :=
  ⟨Fin.mul_assoc, Fin.mul_comm, Fin.one_mul⟩
theorem smallInt_laws_sum : Laws smallInt .sum := ⟨add_assoc, add_comm, zero_add⟩

/-- The axes are normalised to the same set of dimensions by shape inference and by the
lowering, and exactly the named dimensions are reduced. -/
theorem C58_axes (rank : ℕ) (axes : Axes) (noop : Bool) (dims : List ℤ) (keep : Bool)
    (hr : rank = dims.length) (hd : axes = .absent ∨ ∃ l, axes = .lits l ∧ l ≠ [])
    (hin : AxesInRange rank axes.toList) :
    ∃ red, Marked rank axes.toList noop red ∧ lowerMask rank axes noop = some red ∧
      reduceShape dims axes.toList noop keep = some (red, specDims keep red dims) := by
  subst hr
  rcases hd with rfl | ⟨l, rfl, hl⟩
  · refine ⟨List.replicate dims.length (!noop), ⟨by simp, fun i hi => ?_⟩, rfl, ?_⟩
    · simp [Axes.toList, List.getD_eq_getElem?_getD, hi]
    · simp [reduceShape, Axes.toList, specDims_eq]
  · simp only [Axes.toList] at hin ⊢
    have hs : ∀ a ∈ l, (axisPos dims.length a).isSome := by
      intro a ha
      have := hin a ha
      unfold axisPos
      rw [if_neg (by omega)]
      rfl
    obtain ⟨red, hred⟩ := set_fold_some dims.length (axisPos dims.length) l
      (List.replicate dims.length false) hs
    have hn : normAxes dims.length l = some red := by rw [normAxes_eq]; exact hred
    obtain ⟨h1, h2⟩ := set_fold_spec dims.length (axisPos dims.length)
      (fun a n h => ((axisPos_iff _ _ _).1 h).1) l _ red (by simp) hred
    refine ⟨red, ⟨h1, fun i hi => ?_⟩, hn, ?_⟩
    · rw [h2 i]
      simp only [List.getD_eq_getElem?_getD, List.getElem?_replicate, hi, if_true, Option.getD_some,
        Bool.false_eq_true, false_or, axisPos_iff, hl, true_and, false_and]
    · unfold reduceShape
      rw [if_pos (List.length_pos_iff.2 hl), hn, specDims_eq]
      rfl

example : ∃ red, Marked 3 [-1, 0] false red ∧ lowerMask 3 (.lits [-1, 0]) false = some red := by
  obtain ⟨red, h1, h2, _⟩ := C58_axes 3 (.lits [-1, 0]) false [2, 3, 4] true rfl
    (Or.inr ⟨_, rfl, by simp⟩) (by simp [AxesInRange, Axes.toList])
  exact ⟨red, h1, h2⟩

/-- Scalar code with compile-time axes; no law of the arithmetic is used, elements are
combined in row-major order. -/
theorem C58_scalar (N : NumOps R) (k : RKind) (X : Mem R) (axes : Axes) (noop keep : Bool)
    (hX : ∀ d ∈ X.shape, 0 ≤ d) (hd : axes = .absent ∨ ∃ l, axes = .lits l ∧ l ≠ [])
    (hin : AxesInRange X.shape.length axes.toList)
    (hm : k = .mean → ∀ red, Marked X.shape.length axes.toList noop red →
      numel (specDims keep red X.shape) ≠ 0) :
    ∃ red o, Marked X.shape.length axes.toList noop red ∧
      lowerScalar N k X axes noop keep = some o ∧ IsReduction N k X keep red o := by
  obtain ⟨red, hmk, h1, h2⟩ := C58_axes X.shape.length axes noop X.shape keep rfl hd hin
  have hm' : k.divides = true → numel (outDims keep red X.shape) ≠ 0 := by
    intro hk
    rw [← specDims_eq]
    refine hm ?_ red hmk
    cases k <;> simp [RKind.divides] at hk ⊢
  rw [specDims_eq] at h2
  obtain ⟨o, e, hs, hv⟩ := scalarReduce_spec N k X keep red
    (accStatic (outDims keep red X.shape).length (reductionMapping keep red)) hmk.1 hX
    (fun i hi => accStatic_eq keep red X.shape i hmk.1 hi.length) hm'
  refine ⟨red, o, hmk, ?_, by rw [hs, specDims_eq], hv⟩
  unfold lowerScalar
  rw [h2, Option.bind_some, h1, Option.bind_some]
  exact e

example : ∃ red o, Marked 2 [-1] false red ∧
    lowerScalar ui8 .mean ⟨[2, 3], fun i => ⟨((i.getD 0 0 * 3 + i.getD 1 0) % 256).toNat, by omega⟩⟩
      (.lits [-1]) false false = some o ∧
    IsReduction ui8 .mean ⟨[2, 3], fun i => ⟨((i.getD 0 0 * 3 + i.getD 1 0) % 256).toNat, by omega⟩⟩
      false red o := by
  refine C58_scalar ui8 .mean ⟨[2, 3], _⟩ (.lits [-1]) false false (by simp) (Or.inr ⟨_, rfl, by simp⟩)
    (by simp [AxesInRange, Axes.toList]) ?_
  rintro _ red ⟨h1, h2⟩
  match red, h1 with
  | [a, b], _ =>
    have ha := h2 0 (by simp)
    have hb := h2 1 (by simp)
    simp [Axes.toList] at ha hb
    subst ha hb
    simp [specDims, numel]

/-- Scalar code with run-time axes, reduced dimensions kept. -/
theorem C58_dynamic_axes (N : NumOps R) (k : RKind) (X : Mem R) (lenKnown noop : Bool) (l : List ℤ)
    (hX : ∀ d ∈ X.shape, 0 ≤ d) (hin : AxesInRange X.shape.length l)
    (hl : lenKnown = true → l ≠ [])
    (hm : k = .mean → ∀ red, Marked X.shape.length l noop red →
      numel (specDims true red X.shape) ≠ 0) :
    ∃ red o, Marked X.shape.length l noop red ∧
      lowerDynamic N k X lenKnown noop l = some o ∧ IsReduction N k X true red o := by
  have hs : ∀ a ∈ l, (axisPos X.shape.length a).isSome := by
    intro a ha
    have := hin a ha
    unfold axisPos
    rw [if_neg (by omega)]
    rfl
  obtain ⟨red, hred⟩ := set_fold_some X.shape.length (axisPos X.shape.length) l
    (List.replicate X.shape.length (!lenKnown && !noop && decide (l.length = 0))) hs
  have hn : dynMask X.shape.length lenKnown noop l = some red := by rw [dynMask_eq]; exact hred
  obtain ⟨h1, h2⟩ := set_fold_spec X.shape.length (axisPos X.shape.length)
    (fun a n h => ((axisPos_iff _ _ _).1 h).1) l _ red (by simp) hred
  have hmk : Marked X.shape.length l noop red := by
    refine ⟨h1, fun i hi => ?_⟩
    rw [h2 i]
    simp only [List.getD_eq_getElem?_getD, List.getElem?_replicate, hi, if_true, Option.getD_some,
      axisPos_iff, true_and]
    have : ((!lenKnown && !noop && decide (l.length = 0)) = true) ↔ (l = [] ∧ noop = false) := by
      cases lenKnown
      · simp [and_comm]
      · have := hl rfl
        simp [this]
    rw [this]
  have hm' : k.divides = true → numel (outDims true red X.shape) ≠ 0 := by
    intro hk
    rw [← specDims_eq]
    refine hm ?_ red hmk
    cases k <;> simp [RKind.divides] at hk ⊢
  obtain ⟨o, e, hs, hv⟩ := scalarReduce_spec N k X true red
    (accDynamic X.shape.length red) h1 hX
    (fun i hi => by rw [← h1]; exact accDynamic_eq red i (by rw [h1, hi.length])) hm'
  refine ⟨red, o, hmk, ?_, by rw [hs, specDims_eq], hv⟩
  unfold lowerDynamic
  rw [hn, Option.bind_some, dynOutDims_eq]
  exact e

example : ∃ red o, Marked 2 [] false red ∧
    lowerDynamic ui8 .sum ⟨[2, 3], fun _ => 7⟩ false false [] = some o ∧
    IsReduction ui8 .sum ⟨[2, 3], fun _ => 7⟩ true red o :=
  C58_dynamic_axes ui8 .sum ⟨[2, 3], fun _ => 7⟩ false false [] (by simp) (by simp [AxesInRange])
    (by simp) (by simp)

/-- SIMD code for the reduction of the innermost dimensions, one row at a time; with a
trip count that is not a multiple of the vector length a scalar loop does the rest. -/
theorem C58_horizontal (N : NumOps R) (k : RKind) (hk : Laws N k) (X : Mem R)
    (outer inner : List ℤ) (keep lit : Bool) (VL : ℕ) (simdOnly : Bool) (junk : ℤ → R)
    (hX : X.shape = outer ++ inner) (hd : ∀ d ∈ X.shape, 0 ≤ d) (hVL : 0 < VL)
    (hs : simdOnly = true → (VL : ℤ) ∣ numel inner)
    (hm : k = .mean → numel outer ≠ 0) :
    ∃ o, reduceHorizontal N k X outer inner keep lit VL simdOnly junk = some o ∧
      IsReduction N k X keep
        (List.replicate outer.length false ++ List.replicate inner.length true) o := by
  obtain ⟨o, e, h1, h2⟩ := reduceHorizontal_spec N k (lawful_of_laws hk) X outer inner keep lit VL
    simdOnly junk hX hd hVL hs (fun h => hm (by cases k <;> simp [RKind.divides] at h ⊢))
  exact ⟨o, e, by rw [h1, specDims_eq]; rfl, h2⟩

example : ∃ o, reduceHorizontal ui8 .sum ⟨[2, 3, 5], fun i => ⟨(i.getD 2 0 % 256).toNat, by omega⟩⟩
      [2] [3, 5] true true 4 false (fun _ => 99) = some o ∧
    IsReduction ui8 .sum ⟨[2, 3, 5], fun i => ⟨(i.getD 2 0 % 256).toNat, by omega⟩⟩ true
      [false, true, true] o :=
  C58_horizontal ui8 .sum ui8_laws_sum _ [2] [3, 5] true true 4 false _ rfl (by simp) (by omega)
    (by simp) (by simp)

/-- SIMD code for the reduction of the innermost dimensions without a horizontal
instruction: as many rows as the vector length at a time, reduced by shuffles. -/
theorem C58_shuffle (N : NumOps R) (k : RKind) (hk : Laws N k) (X : Mem R)
    (outer : List ℤ) (M : IE) (inner : List ℤ) (keep lit : Bool) (e : ℕ) (simdOnly : Bool)
    (junk : ℤ → R) (hX : X.shape = outer ++ [M.val] ++ inner) (hd : ∀ d ∈ X.shape, 0 ≤ d)
    (hs : simdOnly = true → ((2 ^ e : ℕ) : ℤ) ∣ numel inner)
    (hm : k = .mean → numel (outer ++ [M.val]) ≠ 0) :
    ∃ o, reduceShuffle N k X outer M inner keep lit (2 ^ e) simdOnly junk = some o ∧
      IsReduction N k X keep
        (List.replicate (outer.length + 1) false ++ List.replicate inner.length true) o := by
  obtain ⟨o, eo, h1, h2⟩ := reduceShuffle_spec N k (lawful_of_laws hk) X outer M inner keep lit e
    simdOnly junk hX hd hs (fun h => hm (by cases k <;> simp [RKind.divides] at h ⊢))
  have : (outer ++ [M.val]).length = outer.length + 1 := by simp
  rw [this] at h1 h2
  exact ⟨o, eo, by rw [h1, specDims_eq]; rfl, h2⟩

example : ∃ o, reduceShuffle ui8 .mean ⟨[2, 7, 5], fun i => ⟨(i.getD 2 0 % 256).toNat, by omega⟩⟩
      [2] ⟨7, true⟩ [5] false true (2 ^ 2) false (fun _ => 99) = some o ∧
    IsReduction ui8 .mean ⟨[2, 7, 5], fun i => ⟨(i.getD 2 0 % 256).toNat, by omega⟩⟩ false
      [false, false, true] o :=
  C58_shuffle ui8 .mean ui8_laws_mean _ [2] ⟨7, true⟩ [5] false true 2 false _ rfl (by simp)
    (by simp) (by simp [numel])

/-- The whole tensor, one thread. -/
theorem C58_full (N : NumOps R) (k : RKind) (hk : Laws N k) (X : Mem R) (lit : Bool) (VL : ℕ)
    (simdOnly : Bool) (hd : ∀ d ∈ X.shape, 0 ≤ d) (hVL : 0 < VL)
    (hs : simdOnly = true → (VL : ℤ) ∣ numel X.shape) :
    fullReduce N [(k, id)] X.flat lit VL simdOnly false =
      some [specAt N k X false (List.replicate X.shape.length true) []] := by
  obtain ⟨out, e, hl, hv⟩ := fullReduce_seq N [(k, id)] (by simpa using lawful_of_laws hk) X.flat lit VL
    simdOnly hVL (numel_nonneg hd) hs
  have h0 := hv 0 k id rfl
  have hall : contributing X.shape false (List.replicate X.shape.length true) [] = idxs X.shape := by
    refine List.filter_eq_self.2 fun i hi => ?_
    have hl := (mem_idxs.1 hi).length
    have := project_inner false [] i
    rw [hl] at this
    simp only [innerMask, List.length_nil, List.replicate_zero, List.nil_append] at this
    simpa using this
  rw [e]
  match out, hl with
  | [x], _ =>
    simp only [List.getElem?_cons_zero, Option.some.injEq] at h0
    rw [h0, segVal_all N k X hd, specAt_eq, post, hall, length_idxs hd]
    rfl

example : fullReduce ui8 [(.sum, id)] (Mem.flat ⟨[3, 5], fun i => ⟨(i.getD 1 0 % 256).toNat, by omega⟩⟩)
      true 4 false false = some [30] := by
  rw [C58_full ui8 .sum ui8_laws_sum _ true 4 false (by simp) (by omega) (by simp)]
  rfl

/-- The whole tensor with eight threads, provided that the blocks of the threads do not
start after the end of the tensor: at least 49 elements are enough. -/
theorem C58_full_parallel_partial (N : NumOps R) (k : RKind) (hk : Laws N k) (X : Mem R) (lit : Bool)
    (VL : ℕ) (simdOnly : Bool) (hd : ∀ d ∈ X.shape, 0 ≤ d) (hVL : 0 < VL)
    (h7 : 7 * ((numel X.shape + 7) / 8) ≤ numel X.shape) :
    fullReduce N [(k, id)] X.flat lit VL simdOnly true =
      some [specAt N k X false (List.replicate X.shape.length true) []] := by
  obtain ⟨out, e, hl, hv⟩ := fullReduce_par N [(k, id)] (by simpa using lawful_of_laws hk) X.flat lit VL
    simdOnly hVL (numel_nonneg hd) h7 (by simp)
  rw [e]
  have hseq := C58_full N k hk X lit VL false hd hVL (by simp)
  obtain ⟨out', e', hl', hv'⟩ := fullReduce_seq N [(k, id)] (by simpa using lawful_of_laws hk) X.flat lit
    VL false hVL (numel_nonneg hd) (by simp)
  rw [hseq] at e'
  have h1 := hv 0 k id rfl
  have h2 := hv' 0 k id rfl
  simp only [Option.some.injEq] at e'
  subst e'
  simp only [List.getElem?_cons_zero, Option.some.injEq] at h2
  match out, hl with
  | [x], _ =>
    simp only [List.getElem?_cons_zero, Option.some.injEq] at h1
    rw [h1, ← h2]

/-- The parallel version chosen at compile time, with a literal trip count and vectors of
at least two lanes, meets the condition. -/
theorem C58_parallel_literal (n : ℤ) (VL : ℕ) (hVL : 2 ≤ VL) (h : usesParallel true true n VL = true) :
    7 * ((n + 7) / 8) ≤ n := by
  simp only [usesParallel, Bool.true_and, Bool.not_true, Bool.false_or, decide_eq_true_eq] at h
  have : (64 : ℤ) ≤ 32 * VL := by omega
  omega

example : fullReduce smallInt [(.sum, id)] (Mem.flat ⟨[8, 8], fun _ => 1⟩) true 2 false true = some [64] := by
  rw [C58_full_parallel_partial smallInt .sum smallInt_laws_sum _ true 2 false (by simp) (by omega)
    (C58_parallel_literal _ 2 (by omega) (by decide))]
  decide +kernel

/-- With a run-time size the parallel version is used for any size, and then elements can
be counted twice: the sum of nine ones with two lanes is not nine. -/
theorem C58_full_parallel_false :
    ¬ ∀ (X : Mem ℤ) (VL : ℕ), (∀ d ∈ X.shape, 0 ≤ d) → 0 < VL →
      usesParallel true false (numel X.shape) VL = true →
      fullReduce smallInt [(.sum, id)] X.flat false VL false true =
        some [specAt smallInt .sum X false (List.replicate X.shape.length true) []] := by
  intro h
  have := h ⟨[9], fun _ => 1⟩ 2 (by simp) (by omega) (by decide)
  revert this
  decide +kernel

/-- The maximum of the absolute values (dynamic quantisation) with eight threads and a
run-time size: a thread without elements contributes minus infinity, whose absolute
value is taken again. -/
theorem C58_absmax_parallel_false :
    ¬ ∀ (X : Buf ℤ), 0 < X.size → (∀ i, -100 < X.data i ∧ X.data i < 100) →
      fullReduce smallInt [(.max, fun x => max x (-x))] X false 1 false true =
        fullReduce smallInt [(.max, fun x => max x (-x))] X false 1 false false := by
  intro h
  have := h ⟨9, fun _ => 1⟩ (by simp) (by simp)
  revert this
  decide +kernel

/-- With SIMD, no axes and `noop_with_empty_axes`, everything is reduced although nothing
should be; the same happens when a dimension is named twice. -/
theorem C58_noop_false :
    (¬ ∀ (X : Mem ℤ), (∀ d ∈ X.shape, 0 ≤ d) →
      ∃ red o, Marked X.shape.length [] true red ∧
        lowerReduce smallInt .sum X .absent true false true true 1 false false = some o ∧
        IsReduction smallInt .sum X false red o) ∧
    ¬ ∀ (X : Mem ℤ) (l : List ℤ), (∀ d ∈ X.shape, 0 ≤ d) → l ≠ [] → AxesInRange X.shape.length l →
      ∃ red o, Marked X.shape.length l false red ∧
        lowerReduce smallInt .sum X (.lits l) false false true true 1 false false = some o ∧
        IsReduction smallInt .sum X false red o := by
  constructor
  · intro h
    obtain ⟨red, o, ⟨h1, h2⟩, e, hs, _⟩ := h ⟨[2], fun _ => 1⟩ (by simp)
    match red, h1 with
    | [a], _ =>
      have ha := h2 0 (by simp)
      simp at ha
      subst ha
      have : (o.shape : List ℤ) = [] := by
        unfold lowerReduce at e
        rw [if_pos (by decide)] at e
        obtain ⟨l, _, rfl⟩ := Option.map_eq_some_iff.1 e
        rfl
      rw [this] at hs
      simp [specDims] at hs
  · intro h
    obtain ⟨red, o, ⟨h1, h2⟩, e, hs, _⟩ := h ⟨[2, 3], fun _ => 1⟩ [0, 0] (by simp) (by simp)
      (by simp [AxesInRange])
    match red, h1 with
    | [a, b], _ =>
      have ha := h2 0 (by simp)
      have hb := h2 1 (by simp)
      simp at ha hb
      subst ha hb
      have : (o.shape : List ℤ) = [] := by
        unfold lowerReduce at e
        rw [if_pos (by decide)] at e
        obtain ⟨l, _, rfl⟩ := Option.map_eq_some_iff.1 e
        rfl
      rw [this] at hs
      simp [specDims] at hs

/-- Axes given as an empty tensor: shape inference reduces everything, the lowering
nothing, and the accumulation leaves the output. -/
theorem C58_empty_axes_false :
    ¬ ∀ (X : Mem ℤ), (∀ d ∈ X.shape, 0 ≤ d) →
      (lowerScalar smallInt .sum X (.lits []) false true).isSome := by
  intro h
  have := h ⟨[2], fun _ => 1⟩ (by simp)
  revert this
  decide +kernel

/-- The mean with an empty result divides by zero. -/
theorem C58_mean_empty_false :
    ¬ ∀ (X : Mem ℤ), (∀ d ∈ X.shape, 0 ≤ d) →
      (lowerScalar smallInt .mean X (.lits [1]) false true).isSome := by
  intro h
  have := h ⟨[0, 2], fun _ => 1⟩ (by simp)
  revert this
  decide +kernel

end Verif.Props
