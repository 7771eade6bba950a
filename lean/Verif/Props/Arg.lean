import Verif.Lower.CumSumLemmas

/-!
C64: ArgMin, ArgMax and Hardmax select the best position along an axis.
C65: CumSum computes running sums along an axis.
-/

namespace Verif.Props

open Verif.Lower

variable {R : Type*}

/-! ### C64 -/

/-- `v` is the position ONNX asks for among `f 0, …, f (d-1)`: the one with the best value,
the first one in case of ties, or the last one when `last` is set. -/
def ArgSpec (le : R → R → Prop) (last : Bool) (f : ℤ → R) (d v : ℤ) : Prop :=
  0 ≤ v ∧ v < d ∧ (∀ k : ℤ, 0 ≤ k → k < d → le (f k) (f v)) ∧
    ∀ k : ℤ, 0 ≤ k → k < d → le (f v) (f k) → if last then k ≤ v else v ≤ k

/-- ArgMax along the dimension between `da` and `dc`, `select_last_index` not set, for
elements compared by a total order (integers, floats without NaN). -/
theorem C64_argmax [LinearOrder R] {da dc : List ℤ} {d : ℤ} {data : Mem R}
    (hdata : data.shape = da ++ [d] ++ dc) (hd : 0 < d) {axis : ℤ} (keep : Bool) (junk : Idx → ℤ)
    (hax : axis = da.length ∨ axis = (da.length : ℤ) - data.shape.length) :
    ∃ out, argMinMax (fun x y => decide (x < y)) .max data axis keep false junk = some out ∧
      out.shape = (if keep then da ++ [1] ++ dc else da ++ dc) ∧
      ∀ a c, InShape a da → InShape c dc →
        ArgSpec (· ≤ ·) false (fun k => data.data (a ++ [k] ++ c)) d
          (out.data (if keep then a ++ [0] ++ c else a ++ c)) := by
  obtain ⟨out, e, hs, h⟩ := argMinMax_spec (fun x y : R => decide (x < y)) .max hdata hd keep false junk hax
    (fun x y z h1 h2 => by simp only [ArgKind.better, decide_eq_true_eq] at *; exact lt_trans h2 h1)
    (fun x y z h1 h2 => by simp only [ArgKind.better, decide_eq_false_iff_not, not_lt] at *; exact le_trans h1 h2)
    (fun x => by simp [ArgKind.better])
  refine ⟨out, e, by rw [hs]; cases keep <;> simp [dropAt], fun a c ha hc => ?_⟩
  obtain ⟨h0, h1, h2, h3⟩ := h a c ha hc
  have hidx : dropAt keep 0 a c = (if keep then a ++ [0] ++ c else a ++ c) := by cases keep <;> simp [dropAt]
  rw [hidx] at h0 h1 h2 h3
  refine ⟨h0, h1, fun k hk0 hk1 => ?_, fun k hk0 hk1 hle => ?_⟩
  · have := h2 k hk0 hk1
    simpa only [ArgKind.better, decide_eq_false_iff_not, not_lt] using this
  · by_contra hn
    simp only [Bool.false_eq_true, if_false, not_le] at hn
    have := h3 k hk0 hn
    simp only [ArgKind.better, decide_eq_true_eq] at this
    exact absurd hle (not_le.2 this)

/-- ArgMin. -/
theorem C64_argmin [LinearOrder R] {da dc : List ℤ} {d : ℤ} {data : Mem R}
    (hdata : data.shape = da ++ [d] ++ dc) (hd : 0 < d) {axis : ℤ} (keep : Bool) (junk : Idx → ℤ)
    (hax : axis = da.length ∨ axis = (da.length : ℤ) - data.shape.length) :
    ∃ out, argMinMax (fun x y => decide (x < y)) .min data axis keep false junk = some out ∧
      out.shape = (if keep then da ++ [1] ++ dc else da ++ dc) ∧
      ∀ a c, InShape a da → InShape c dc →
        ArgSpec (· ≥ ·) false (fun k => data.data (a ++ [k] ++ c)) d
          (out.data (if keep then a ++ [0] ++ c else a ++ c)) := by
  obtain ⟨out, e, hs, h⟩ := argMinMax_spec (fun x y : R => decide (x < y)) .min hdata hd keep false junk hax
    (fun x y z h1 h2 => by simp only [ArgKind.better, decide_eq_true_eq] at *; exact lt_trans h1 h2)
    (fun x y z h1 h2 => by simp only [ArgKind.better, decide_eq_false_iff_not, not_lt] at *; exact le_trans h2 h1)
    (fun x => by simp [ArgKind.better])
  refine ⟨out, e, by rw [hs]; cases keep <;> simp [dropAt], fun a c ha hc => ?_⟩
  obtain ⟨h0, h1, h2, h3⟩ := h a c ha hc
  have hidx : dropAt keep 0 a c = (if keep then a ++ [0] ++ c else a ++ c) := by cases keep <;> simp [dropAt]
  rw [hidx] at h0 h1 h2 h3
  refine ⟨h0, h1, fun k hk0 hk1 => ?_, fun k hk0 hk1 hle => ?_⟩
  · have := h2 k hk0 hk1
    simpa only [ArgKind.better, decide_eq_false_iff_not, not_lt] using this
  · by_contra hn
    simp only [Bool.false_eq_true, if_false, not_le] at hn
    have := h3 k hk0 hn
    simp only [ArgKind.better, decide_eq_true_eq] at this
    exact absurd hle (not_le.2 this)

example : ∃ data : Mem ℤ, data.shape = [2] ++ [3] ++ [] ∧
    (argMinMax (fun x y => decide (x < y)) .max data (-1) true false (fun _ => 7)).map
      (fun o => (o.shape, o.data [0, 0], o.data [1, 0])) = some ([2, 1], 1, 2) ∧
    (argMinMax (fun x y => decide (x < y)) .min data 1 false false (fun _ => 7)).map
      (fun o => (o.shape, o.data [0], o.data [1])) = some ([2], 0, 0) :=
  ⟨⟨[2, 3], fun i => if i.getD 0 0 = 0 then ([3, 9, 9] : List ℤ).getD (i.getD 1 0).toNat 0
      else ([1, 2, 3] : List ℤ).getD (i.getD 1 0).toNat 0⟩, rfl, by decide +kernel, by decide +kernel⟩

/-- `select_last_index` is ignored: of two equal values the first is selected. -/
theorem C64_last_false : ¬ ∀ (data : Mem ℤ) (d : ℤ), data.shape = [d] → 0 < d → ∀ out,
    argMinMax (fun x y => decide (x < y)) .max data 0 true true (fun _ => 0) = some out →
      ArgSpec (· ≤ ·) true (fun k => data.data [k]) d (out.data [0]) := by
  intro h
  have e : (argMinMax (fun x y : ℤ => decide (x < y)) .max (⟨[2], fun _ => 5⟩ : Mem ℤ) 0 true true (fun _ => 0)).map
      (fun o => o.data [0]) = some 0 := by decide +kernel
  rcases ho : argMinMax (fun x y : ℤ => decide (x < y)) .max (⟨[2], fun _ => 5⟩ : Mem ℤ) 0 true true (fun _ => 0)
    with _ | out
  · rw [ho] at e; cases e
  · rw [ho] at e
    simp only [Option.map_some, Option.some.injEq] at e
    obtain ⟨_, _, _, h4⟩ := h _ 2 rfl (by omega) out ho
    have := h4 1 (by omega) (by omega) (le_refl _)
    rw [e] at this
    simp at this

/-- The comparison is signed for unsigned elements too: of the bytes 200 and 100, the
second is selected as the maximum. -/
theorem C64_unsigned_false : ¬ ∀ (data : Mem (BitVec 8)) (d : ℤ), data.shape = [d] → 0 < d → ∀ out,
    argMinMax BitVec.slt .max data 0 true false (fun _ => 0) = some out →
      ArgSpec (fun x y : BitVec 8 => x.toNat ≤ y.toNat) false (fun k => data.data [k]) d (out.data [0]) := by
  intro h
  have e : (argMinMax BitVec.slt .max (⟨[2], fun i => if i = [0] then 200 else 100⟩ : Mem (BitVec 8)) 0 true false
      (fun _ => 0)).map (fun o => o.data [0]) = some 1 := by decide +kernel
  rcases ho : argMinMax BitVec.slt .max (⟨[2], fun i => if i = [0] then 200 else 100⟩ : Mem (BitVec 8)) 0 true false
      (fun _ => 0) with _ | out
  · rw [ho] at e; cases e
  · rw [ho] at e
    simp only [Option.map_some, Option.some.injEq] at e
    obtain ⟨_, _, h3, _⟩ := h _ 2 rfl (by omega) out ho
    have := h3 0 (by omega) (by omega)
    rw [e] at this
    revert this
    decide

/-- Hardmax: one at the first maximum, zero elsewhere. -/
theorem C64_hardmax [LinearOrder R] {da dc : List ℤ} {d : ℤ} {input : Mem R} (zero one : R)
    (hin : input.shape = da ++ [d] ++ dc) (hd : 0 < d) {axis : ℤ} (junk : Idx → R)
    (hax : axis = da.length ∨ axis = (da.length : ℤ) - input.shape.length) :
    ∃ out, hardmax (fun x y => decide (x < y)) zero one input axis junk = some out ∧ out.shape = input.shape ∧
      ∀ a c, InShape a da → InShape c dc → ∃ v,
        ArgSpec (· ≤ ·) false (fun k => input.data (a ++ [k] ++ c)) d v ∧
        ∀ k : ℤ, 0 ≤ k → k < d → out.data (a ++ [k] ++ c) = if k = v then one else zero := by
  obtain ⟨out, e, hs, h⟩ := hardmax_spec (fun x y : R => decide (x < y)) zero one hin hd junk hax
    (fun x y z h1 h2 => by simp only [decide_eq_true_eq] at *; exact lt_trans h1 h2)
    (fun x y z h1 h2 => by simp only [decide_eq_false_iff_not, not_lt] at *; exact le_trans h2 h1)
    (fun x => by simp)
  refine ⟨out, e, hs, fun a c ha hc => ?_⟩
  obtain ⟨v, ⟨h0, h1, h2, h3⟩, h4⟩ := h a c ha hc
  refine ⟨v, ⟨h0, h1, fun k hk0 hk1 => ?_, fun k hk0 hk1 hle => ?_⟩, fun k hk0 hk1 => ?_⟩
  · have := h2 k hk0 hk1
    simpa only [decide_eq_false_iff_not, not_lt] using this
  · by_contra hn
    simp only [Bool.false_eq_true, if_false, not_le] at hn
    have := h3 k hk0 hn
    simp only [decide_eq_true_eq] at this
    exact absurd hle (not_le.2 this)
  · rw [h4 k hk0 hk1]
    simp only [eq_comm]

example : ∃ input : Mem ℤ, input.shape = [2] ++ [3] ++ [] ∧
    (hardmax (fun x y => decide (x < y)) 0 1 input (-1) (fun _ => 7)).map
      (fun o => (idxs o.shape).map o.data) = some [0, 1, 0, 0, 0, 1] :=
  ⟨⟨[2, 3], fun i => if i.getD 0 0 = 0 then ([3, 9, 9] : List ℤ).getD (i.getD 1 0).toNat 0
      else ([1, 2, 3] : List ℤ).getD (i.getD 1 0).toNat 0⟩, rfl, by decide +kernel⟩

/-! ### C65 -/

/-- Does the running sum at position `k` include element `j`? -/
def CumIncl (exclusive reverse : Bool) (j k : ℤ) : Prop :=
  match exclusive, reverse with
  | false, false => j ≤ k
  | true, false => j < k
  | false, true => k ≤ j
  | true, true => k < j

instance (e r : Bool) (j k : ℤ) : Decidable (CumIncl e r j k) := by
  unfold CumIncl; split <;> infer_instance

/-- CumSum along the dimension between `da` and `dc`, except when this dimension is known to
be 1 at compile time; the sum is that of any commutative monoid, floating-point rounding is
not modelled. -/
theorem C65_cumsum_partial [AddCommMonoid R] {da dc : List ℤ} {d : ℤ} {X : Mem R} (hX : X.shape = da ++ [d] ++ dc)
    {axis : ℤ} (hax : axis = da.length ∨ axis = (da.length : ℤ) - X.shape.length)
    (exclusive reverse static : Bool) (hd : 0 < d) (h1 : static = true → d ≠ 1) (junk junk' : Idx → R) :
    ∃ out, cumSum X axis exclusive reverse static junk junk' = some out ∧ out.shape = da ++ [d] ++ dc ∧
      ∀ a k c, InShape a da → InShape c dc → 0 ≤ k → k < d →
        out.data (a ++ [k] ++ c) =
          ∑ j ∈ (Finset.Ico 0 d).filter (fun j => CumIncl exclusive reverse j k), X.data (a ++ [j] ++ c) := by
  obtain ⟨out, e, hs, h⟩ := cumSum_spec hX hax exclusive reverse static hd h1 junk junk'
  refine ⟨out, e, hs, fun a k c ha hc hk0 hk1 => ?_⟩
  rw [h a k c ha hc hk0 hk1]
  congr 1
  refine Finset.filter_congr fun j _ => ?_
  unfold cumIncl CumIncl
  cases exclusive <;> cases reverse <;> simp

example : ∃ X : Mem ℤ, X.shape = [] ++ [5] ++ [2] ∧
    (cumSum X 0 false false true (fun _ => 77) (fun _ => 78)).map (fun o => (upto 5).map fun k => o.data [k, 1]) =
      some [1, 3, 6, 10, 15] ∧
    (cumSum X (-2) true true true (fun _ => 77) (fun _ => 78)).map (fun o => (upto 5).map fun k => o.data [k, 1]) =
      some [14, 12, 9, 5, 0] :=
  ⟨⟨[5, 2], fun i => i.getD 0 0 + i.getD 1 0⟩, rfl, by decide +kernel, by decide +kernel⟩

/-- When the dimension is known to be 1 at compile time, no pass is made and the output is
never written. -/
theorem C65_static_one_false : ¬ ∀ (X : Mem ℤ) (d : ℤ) (junk : Idx → ℤ), X.shape = [d] → 0 < d → ∀ out,
    cumSum X 0 false false true junk (fun _ => 0) = some out →
      ∀ k : ℤ, 0 ≤ k → k < d →
        out.data [k] = ∑ j ∈ (Finset.Ico 0 d).filter (fun j => CumIncl false false j k), X.data [j] := by
  intro h
  have e : (cumSum (⟨[1], fun _ => 5⟩ : Mem ℤ) 0 false false true (fun _ => 77) (fun _ => 0)).map
      (fun o => o.data [0]) = some 77 := by decide +kernel
  rcases ho : cumSum (⟨[1], fun _ => 5⟩ : Mem ℤ) 0 false false true (fun _ => 77) (fun _ => 0) with _ | out
  · rw [ho] at e; cases e
  · rw [ho] at e
    simp only [Option.map_some, Option.some.injEq] at e
    have := h _ 1 _ rfl (by omega) out ho 0 (by omega) (by omega)
    rw [e] at this
    revert this
    decide +kernel

end Verif.Props
