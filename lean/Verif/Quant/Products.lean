import Verif.Quant.Lemmas
import Mathlib.Algebra.BigOperators.Field

/-! # The lowering of products of quantised matrices -/

namespace Verif.Quant

variable {K : Type} [Field K] [LinearOrder K] [IsStrictOrderedRing K] [FloorRing K]

theorem matMulInteger_eq (sA sB : Bool) (m k n : ℕ) (a b : ℕ → ℕ → BitVec 8) (za zb : Option (Par (BitVec 8)))
    (ha : ∀ z, za = some z → z.Fits m) (hb : ∀ z, zb = some z → z.Fits n) (i j : ℕ) (hi : i < m) (hj : j < n) :
    matMulInteger sA sB k a b (za.map Par.toT2) (zb.map Par.toT2) i j = BitVec.ofInt 32
      (accumulate k (fun i l => val8 sA (a i l)) (fun l j => val8 sB (b l j))
        ((za.map (Par.map (val8 sA))).getD (.scalar 0)) ((zb.map (Par.map (val8 sB))).getD (.scalar 0)) i j) := by
  unfold accumulate
  rw [ofInt32_sum]
  unfold matMulInteger
  unfold matmul32
  refine Finset.sum_congr rfl fun l _ => ?_
  rw [BitVec.ofInt_mul]
  congr 1
  · cases za with
    | none => simp [cast32_eq, Par.get]
    | some z =>
      simp only [Option.map_some, Option.getD_some]
      rw [read_rows m z (ha z rfl) i l hi, cast32_eq, cast32_eq, sub32, Par.get_map]
  · cases zb with
    | none => simp [cast32_eq, Par.get]
    | some z =>
      simp only [Option.map_some, Option.getD_some]
      rw [read_cols n z (hb z rfl) l j hj, cast32_eq, cast32_eq, sub32, Par.get_map]

theorem Par.get_scalar {α : Type} (v : α) (i : ℕ) : (Par.scalar v).get i = v := rfl

/-- One scale for the left matrix; one, or one for each column, for the right matrix. -/
theorem scale_read (n : ℕ) (s : K) (sb : Par K) (hsb : sb.Fits n) (sy : K) (i j : ℕ) (hj : j < n) :
    (scaleTensor (Par.scalar s).toT2 sb.toT2 sy).read i j = s * sb.get j / sy := by
  cases sb with
  | scalar v => rfl
  | each m f =>
    simp only [Par.Fits] at hsb
    subst hsb
    simp only [Par.toT2, scaleTensor, Par.get, T2.read]
    by_cases h : m = 1
    · subst h
      have : j = 0 := by omega
      subst this
      simp
    · simp [h]

theorem toInt_ofInt32 (n : ℤ) (h : |n| < 2 ^ 31) : (BitVec.ofInt 32 n).toInt = n := by
  rw [abs_lt] at h
  rw [BitVec.toInt_ofInt, Int.bmod_def]
  norm_num at h ⊢
  split <;> omega

theorem out8 (s : Bool) (r : ℤ) (zy : BitVec 8) :
    (if s then (BitVec.ofInt 32 r + cast32 true (getOrCastToI8 s zy)).setWidth 8
      else ((BitVec.ofInt 32 r + cast32 true (getOrCastToI8 s zy)) + 128#32).setWidth 8)
      = BitVec.ofInt 8 (r + val8 s zy) := by
  rw [cast32_eq, getOrCast_val, ← BitVec.ofInt_add]
  cases s
  · simp only [Bool.false_eq_true, if_false]
    rw [show (128#32) = BitVec.ofInt 32 128 from rfl, ← BitVec.ofInt_add, setWidth8_ofInt32]
    congr 1; ring
  · simp only [if_true]
    rw [setWidth8_ofInt32]
    congr 1; ring

theorem qLinear_eq (sA sB sY : Bool) (m k n : ℕ) (a b : ℕ → ℕ → BitVec 8) (za zb : Par (BitVec 8))
    (hza : za.Fits m) (hzb : zb.Fits n) (s : K) (sb : Par K) (hsb : sb.Fits n) (sy : K) (zy : BitVec 8)
    (hk : k ≤ 33025) (i j : ℕ) (hi : i < m) (hj : j < n) (r : ℤ)
    (hr : IsRoundEven ((accumulate k (fun i l => val8 sA (a i l)) (fun l j => val8 sB (b l j)) (za.map (val8 sA))
      (zb.map (val8 sB)) i j : K) * (s * sb.get j / sy)) r) :
    qLinearMatMul sA sB sY k a b za.toT2 zb.toT2 (Par.scalar s).toT2 sb.toT2 sy zy i j
      = BitVec.ofInt 8 (r + val8 sY zy) := by
  have hacc : matmul32 k
      (fun i l => cast32 true (getOrCastToI8 sA (a i l)) - cast32 true (getOrCastToI8 sA ((unsqueezeRows za.toT2).read i l)))
      (fun l j => cast32 true (getOrCastToI8 sB (b l j)) - cast32 true (getOrCastToI8 sB (zb.toT2.read l j))) i j
      = BitVec.ofInt 32 (accumulate k (fun i l => val8 sA (a i l)) (fun l j => val8 sB (b l j)) (za.map (val8 sA))
        (zb.map (val8 sB)) i j) := by
    unfold accumulate matmul32
    rw [ofInt32_sum]
    refine Finset.sum_congr rfl fun l _ => ?_
    beta_reduce
    rw [BitVec.ofInt_mul, getOrCast_diff, getOrCast_diff, read_rows m za hza i l hi, read_cols n zb hzb l j hj,
      Par.get_map, Par.get_map]
  have hb := accumulate_bound sA sB k a b za zb i j
  have hlt : |accumulate k (fun i l => val8 sA (a i l)) (fun l j => val8 sB (b l j)) (za.map (val8 sA))
      (zb.map (val8 sB)) i j| < 2 ^ 31 := by
    refine lt_of_le_of_lt hb ?_
    norm_num
    omega
  unfold qLinearMatMul
  simp only [hacc, toInt_ofInt32 _ hlt, scale_read n s sb hsb sy i j hj, roundEven_iff.1 hr, fpToInt_cast]
  exact out8 sY r zy

end Verif.Quant
