import Verif.Shape.SliceLemmas
import Verif.IndexExpr.Computes
import Mathlib.Tactic.NormNum

/-!
# Property C32: Slice

`Verif/Shape/SliceSpec.lean` quotes the ONNX definition: `sliceFirst`, and `SliceHas … k` for "there is
a `k`-th position". `ρ` gives the run-time values of starts, ends, steps and dimensions (see the
numbering in `Verif/Shape/SliceModel.lean`), `κ` those the compiler knows.
-/

namespace Verif.Props
open Verif.IndexExpr Verif.Shape

/-- **C32**. Slicing along the axes `l` (each within the rank, no axis twice, negative ones counting
from the back): for every mention `l[i]` of axis `j`, with dimension `n`, start `s`, end `e` and
non-zero step `t`, the output extent computed by compiler and generated code counts exactly the
positions of the ONNX slice, and iteration `k` of the generated loop reads the `k`-th of them, which
lies inside the data. Axes not mentioned are copied whole.

Missing: dimensions of `2^31` or more and negative steps on an empty dimension, for which the
code is wrong (below). -/
theorem C32_slice_partial (fl : ℚ → ℚ) (hfl : IsDouble fl) (simp : Aff → Option Int)
    (hs : SimpOk simp) (ρ : Nat → Int) (κ : Nat → Option Int) (hκ : ∀ x n, κ x = some n → ρ x = n)
    (rank : Nat) (l : List Int) (hl : ∀ a ∈ l, -(rank : Int) ≤ a ∧ a < rank)
    (hnd : (l.map (fromEnd · rank)).Nodup)
    (hdim : ∀ j, j < rank → 0 ≤ ρ (dimQ j) ∧ ρ (dimQ j) < 2 ^ 31)
    (hstep : ∀ i, i < l.length → ρ (stepQ i) ≠ 0 ∧ |ρ (stepQ i)| ≤ 2 ^ 63)
    (hempty : ∀ (i j : Nat) (a : Int), l[i]? = some a → (j : Int) = fromEnd a rank → ρ (stepQ i) < 0 → 0 < ρ (dimQ j)) :
    ∃ res, sliceShape κ rank (some l) = some res ∧ res.length = rank ∧
      (∀ (i j : Nat) (a : Int), l[i]? = some a → (j : Int) = fromEnd a rank →
        ∃ ax count, res[j]? = some ax ∧ Computes fl simp κ ρ ax.out count ∧ 0 ≤ count ∧
          ∀ k : Nat, ((k : Int) < count ↔
              SliceHas (ρ (dimQ j)) (ρ (startQ i)) (ρ (endQ i)) (ρ (stepQ i)) k) ∧
            ((k : Int) < count → ∃ p, Computes fl simp κ ρ (loadIndex ax k) p ∧
              p = sliceFirst (ρ (dimQ j)) (ρ (startQ i)) (ρ (stepQ i)) + k * ρ (stepQ i) ∧
              0 ≤ p ∧ p < ρ (dimQ j))) ∧
      ∀ j : Nat, j < rank → (∀ a ∈ l, (j : Int) ≠ fromEnd a rank) →
        ∃ ax, res[j]? = some ax ∧ Computes fl simp κ ρ ax.out (ρ (dimQ j)) ∧
          ∀ k : Nat, Computes fl simp κ ρ (loadIndex ax k) k := by
  obtain ⟨axs, haxs⟩ := normAxes_total hl
  obtain ⟨hlen, hget⟩ := normAxes_spec haxs
  have hmap : axs.map (fun n : Nat => (n : Int)) = l.map (fromEnd · rank) := by
    apply List.ext_getElem?
    intro i
    rw [List.getElem?_map, List.getElem?_map]
    cases hi : l[i]? with
    | none =>
      rw [List.getElem?_eq_none_iff] at hi
      rw [List.getElem?_eq_none_iff.2 (by omega)]; rfl
    | some a =>
      obtain ⟨n, hn, -, he⟩ := hget i a hi
      rw [hn]; simp [he]
  have hnd' : axs.Nodup := by
    rw [← hmap] at hnd
    exact List.Nodup.of_map _ hnd
  have hmem : ∀ j ∈ axs, ∃ (i : Nat) (a : Int), axs[i]? = some j ∧ l[i]? = some a ∧ j < rank ∧
      (j : Int) = fromEnd a rank := by
    intro j hj
    obtain ⟨i, hi⟩ := List.mem_iff_getElem?.1 hj
    have hi' : i < l.length := by
      rw [← hlen]; exact (List.getElem?_eq_some_iff.1 hi).1
    obtain ⟨n, hn, hlt, he⟩ := hget i l[i] (List.getElem?_eq_getElem hi')
    rw [hi] at hn
    simp only [Option.some.injEq] at hn
    subst hn
    exact ⟨i, l[i], hi, List.getElem?_eq_getElem hi', hlt, he⟩
  obtain ⟨res, hres, hrl, h1, h2⟩ := sliceShape_spec (κ := κ) (axes := some l) (axs := axs) haxs
    (fun a ha => (hmem a ha).choose_spec.choose_spec.2.2.1) hnd'
    (fun i hi hc => by
      rw [hlen] at hi
      have := (hstep i hi).1
      rw [hκ _ _ hc] at this
      exact this rfl)
  refine ⟨res, hres, hrl, ?_, ?_⟩
  · intro i j a hi hj
    obtain ⟨n, hn, hlt, he⟩ := hget i a hi
    have hnj : n = j := by omega
    subst hnj
    have hil : i < l.length := (List.getElem?_eq_some_iff.1 hi).1
    obtain ⟨hd0, hd31⟩ := hdim n hlt
    obtain ⟨hst, hst63⟩ := hstep i hil
    have hemp := hempty i n a hi hj
    have e1 : (Expr.sym (startQ i)).eval ρ = some (ρ (startQ i)) := by rw [Expr.eval]
    have e2 : (Expr.sym (endQ i)).eval ρ = some (ρ (endQ i)) := by rw [Expr.eval]
    have e3 : (Expr.sym (stepQ i)).eval ρ = some (ρ (stepQ i)) := by rw [Expr.eval]
    have e4 : (Expr.sym (dimQ n)).eval ρ = some (ρ (dimQ n)) := by rw [Expr.eval]
    have o : ∀ x, (Expr.sym x).Ok ρ := fun x => by rw [Expr.Ok]; trivial
    have m : ∀ x, (Expr.sym x).noMinMax = true := fun x => rfl
    refine ⟨axisOf i n, _, h1 i n hn, computes_of hfl hs hκ
      (dimOut_ok e1 e2 e3 e4 hd0 hemp hd31 hst hst63 (o _) (o _) (o _) (o _) (m _) (m _))
      (dimOut_eval e1 e2 e3 e4 hd0 hemp hd31 hst), le_max_left _ _, fun k => ⟨?_, ?_⟩⟩
    · exact count_spec hd0 hemp hst k
    · intro hk
      have hhas := (count_spec hd0 hemp hst k).1 hk
      refine ⟨_, computes_of hfl hs hκ ?_ ?_, rfl, position_range hd0 hemp hst hhas⟩
      · unfold loadIndex axisOf
        simp only [Expr.Ok]
        exact ⟨⟨trivial, trivial⟩, startFinal_ok (o _) (o _) (o _)⟩
      · have := startFinal_eval e1 e3 e4 hd0 hemp
        unfold loadIndex axisOf
        simp only [Expr.eval, lift2, this, Option.bind_some, Option.some.injEq]
        rw [Int.add_comm, Int.mul_comm]
  · intro j hj hn
    refine ⟨defaultAxis j, h2 j hj (fun hm => ?_), ?_, fun k => ?_⟩
    · obtain ⟨i, a, -, ha, -, he⟩ := hmem j hm
      exact hn a (List.mem_of_getElem? ha) he
    · exact computes_of hfl hs hκ (by simp [defaultAxis, Expr.Ok]) (by simp [defaultAxis, Expr.eval])
    · exact computes_of hfl hs hκ (by simp [loadIndex, defaultAxis, Expr.Ok])
        (by simp [loadIndex, defaultAxis, Expr.eval, lift2])

/-- Slicing a 5 x 4 tensor with axes `[-1]`, start 3, end `INT_MIN`, step -2, everything unknown:
hypotheses hold; positions 3 and 1 are selected. -/
example : ∃ ρ : Nat → Int, (∀ a ∈ [(-1 : Int)], -((2 : Nat) : Int) ≤ a ∧ a < (2 : Nat)) ∧
    (([-1] : List Int).map (fromEnd · (2 : Nat))).Nodup ∧
    (∀ j, j < 2 → 0 ≤ ρ (dimQ j) ∧ ρ (dimQ j) < 2 ^ 31) ∧
    (∀ i, i < 1 → ρ (stepQ i) ≠ 0 ∧ |ρ (stepQ i)| ≤ 2 ^ 63) ∧
    (∀ k, SliceHas 4 3 (-2147483648) (-2) k ↔ k < 2) := by
  refine ⟨fun x => if x = 0 then 3 else if x = 1 then -2147483648 else if x = 2 then -2
    else if x = 3 then 5 else 4, by simp, by simp, ?_, ?_, ?_⟩
  · intro j hj
    unfold dimQ
    rcases (by omega : j = 0 ∨ j = 1) with rfl | rfl <;> simp
  · intro i hi
    have : i = 0 := by omega
    subst this
    simp [stepQ]
  · intro k
    simp [SliceHas, sliceStop, sliceFirst, clampTo, fromEnd]
    omega

/-- The axes are omitted: every axis is sliced. -/
theorem C32_omitted_axes (κ : Nat → Option Int) (rank : Nat) :
    sliceShape κ rank none = sliceShape κ rank (some ((List.range rank).map fun n : Nat => (n : Int))) := by
  have : normAxes rank ((List.range rank).map fun n : Nat => (n : Int)) = some (List.range rank) := by
    obtain ⟨ns, hns⟩ := normAxes_total (rank := rank)
      (l := (List.range rank).map fun n : Nat => (n : Int)) (by
        intro a ha
        obtain ⟨n, hn, rfl⟩ := List.mem_map.1 ha
        have := List.mem_range.1 hn
        omega)
    obtain ⟨h1, h2⟩ := normAxes_spec hns
    rw [hns]
    congr 1
    apply List.ext_getElem?
    intro i
    by_cases hi : i < rank
    · obtain ⟨n, hn, hlt, he⟩ := h2 i i (by simp [hi])
      rw [hn, List.getElem?_range hi]
      have : ¬ (i : Int) < 0 := by omega
      simp only [fromEnd, this, if_false] at he
      congr 1
      omega
    · rw [List.getElem?_eq_none_iff.2 (by simp at h1; omega),
        List.getElem?_eq_none_iff.2 (by simp; omega)]
  unfold sliceShape sliceAxes
  simp only [this]

/-- An axis outside `[-rank, rank)` is rejected. -/
theorem C32_bad_axis_rejected (κ : Nat → Option Int) (rank : Nat) (l : List Int) (a : Int) (ha : a ∈ l)
    (hbad : a < -(rank : Int) ∨ (rank : Int) ≤ a) : sliceShape κ rank (some l) = none := by
  cases h : normAxes rank l with
  | none => unfold sliceShape sliceAxes; simp only [h]; rfl
  | some ns =>
    obtain ⟨i, hi⟩ := List.mem_iff_getElem?.1 ha
    obtain ⟨n, -, hlt, he⟩ := (normAxes_spec h).2 i a hi
    unfold fromEnd at he
    split at he <;> omega

example : sliceShape (fun _ => none) 2 (some [0, 2]) = none :=
  C32_bad_axis_rejected _ _ _ 2 (by simp) (by omega)

/-- A step known to be zero is rejected. -/
theorem C32_zero_step_rejected (κ : Nat → Option Int) (rank : Nat) (l : List Int) (i : Nat)
    (hi : i < l.length) (hz : κ (stepQ i) = some 0) : sliceShape κ rank (some l) = none := by
  have key : ∀ (axs : List Nat) (i0 : Nat) (acc : List (Option SliceAxis)) (k : Nat), k < axs.length →
      κ (stepQ (i0 + k)) = some 0 → setAxes κ i0 axs acc = none := by
    intro axs
    induction axs with
    | nil => intro i0 acc k hk; simp at hk
    | cons a axs ih =>
      intro i0 acc k hk h0
      rw [setAxes]
      cases k with
      | zero =>
        unfold setAxis
        rw [Nat.add_zero] at h0
        rw [if_pos h0]; rfl
      | succ k =>
        unfold setAxis
        split
        · rfl
        · exact ih (i0 + 1) _ k (by simpa using hk) (by rwa [show i0 + 1 + k = i0 + (k + 1) by omega])
  unfold sliceShape sliceAxes
  simp only
  cases h : normAxes rank l with
  | none => rfl
  | some axs =>
    have := (normAxes_spec h).1
    simp only [Option.bind_some]
    rw [key axs 0 _ i (by omega) (by rwa [Nat.zero_add])]; rfl

/-- **C32 is false** for a negative step on an empty dimension: `[][-1:INT_MIN:-1]` is given one
element. -/
theorem C32_empty_dim_false :
    ∃ κ : Nat → Option Int, κ (dimQ 0) = some 0 ∧ κ (stepQ 0) = some (-1) ∧
      (sliceShape κ 1 none).map (fun r => r.map fun ax => ax.out.gen id (fun _ => none) κ) =
        some [some (.lit 1)] := by
  refine ⟨fun x => if x = dimQ 0 then some 0 else if x = stepQ 0 then some (-1) else
    if x = startQ 0 then some (-1) else some (-2147483648), rfl, rfl, ?_⟩
  simp [sliceShape, sliceAxes, List.range, List.range.loop, setAxes, setAxis, fillAxes, dimQ, stepQ,
    startQ, endQ, dimOut, endFinal, startFinal, startPos, endPos, Expr.gen, PExpr.gen, IE.cmp, IE.select,
    IE.clamp, IE.lit?, Cmp.holds, IE.add, IE.sub, IE.ceilDiv, binaryOp, IE.isAffine, litCeilDiv]

/-- **C32 is false** for dimensions beyond 32 bits: an end of `2^31` is taken for "to the end". -/
theorem C32_huge_dim_false :
    ∃ κ : Nat → Option Int, κ (dimQ 0) = some (2 ^ 32) ∧ κ (endQ 0) = some (2 ^ 31) ∧
      (∀ k, SliceHas (2 ^ 32) 0 (2 ^ 31) 1 k ↔ k < 2 ^ 31) ∧
      (sliceShape κ 1 none).map (fun r => r.map fun ax => ax.out.gen id (fun _ => none) κ) =
        some [some (.lit (2 ^ 32))] := by
  refine ⟨fun x => if x = dimQ 0 then some (2 ^ 32) else if x = stepQ 0 then some 1 else
    if x = startQ 0 then some 0 else some (2 ^ 31), rfl, rfl, ?_, ?_⟩
  · intro k
    simp [SliceHas, sliceStop, sliceFirst, clampTo, fromEnd]
  · simp [sliceShape, sliceAxes, List.range, List.range.loop, setAxes, setAxis, fillAxes, dimQ, stepQ,
      startQ, endQ, dimOut, endFinal, startFinal, startPos, endPos, Expr.gen, PExpr.gen, IE.cmp,
      IE.select, IE.clamp, IE.lit?, Cmp.holds, IE.add, IE.sub, IE.ceilDiv, binaryOp, IE.isAffine,
      litCeilDiv]

end Verif.Props
