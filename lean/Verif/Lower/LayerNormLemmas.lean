import Verif.Lower.LayerNormBcast
import Verif.Lower.NormLemmas
import Verif.Lower.ReduceRows
import Verif.Lower.GatherLemmas
import Verif.Lower.ConvLemmas
import Mathlib.Algebra.Order.Chebyshev

/-!
Lemmas for LayerNormalization: reductions, normalisation and the loop over blocks of rows.
-/

namespace Verif.Lower

open Verif.Krnl (Buf starts)

theorem foldlM_snoc {α β : Type*} {f : β → α → Option β} {L : List α} {a : α} {s t u : β} (h : L.foldlM f s = some t)
    (h2 : f t a = some u) : (L ++ [a]).foldlM f s = some u := by
  rw [List.foldlM_append, h]
  show ([a].foldlM f t) = some u
  rw [List.foldlM_cons, h2]
  rfl

/-! ### Reductions -/

/-- The lines of the buffer read as `n` rows of `K` elements. -/
def rowAt (X : Buf ℝ) (K r p : ℤ) : ℝ := X.data (r * K + p)

/-- Sum over a row. -/
noncomputable def rowSum (f : ℝ → ℝ) (X : Buf ℝ) (K : ℤ) (r : ℤ) : ℝ := ∑ p ∈ Finset.range K.toNat, f (rowAt X K r p)

theorem lnRedRow_range (rms : Bool) (X : Buf ℝ) (n K : ℤ) (VL : ℕ) (i j : ℤ) (hi : 0 ≤ i) (hj : 0 ≤ j) (hjK : j + VL ≤ K) (t : Reds2) :
    ∀ B : ℕ, i + B ≤ n → (List.range B).foldlM (fun t d => lnRedRow rms X n K VL i j t d) t = some
      ⟨if rms then t.r1 else fun d l => if d < B then t.r1 d l + rowAt X K (i + d) (j + l) else t.r1 d l,
       fun d l => if d < B then t.r2 d l + rowAt X K (i + d) (j + l) * rowAt X K (i + d) (j + l) else t.r2 d l⟩
  | 0, _ => by
    cases rms <;> simp
  | B + 1, h => by
    rw [List.range_succ]
    refine foldlM_snoc (lnRedRow_range rms X n K VL i j hi hj hjK t B (by push_cast at h; omega)) ?_
    have hl : vload2 X n K VL (i + B) j = some fun (l : ℕ) => X.data ((i + B) * K + j + l) := by
      unfold vload2
      rw [if_pos ⟨by omega, by push_cast at h; omega, hj, hjK⟩]
    unfold lnRedRow
    rw [hl, Option.map_some]
    refine congrArg some ?_
    have e : ∀ l : ℕ, X.data ((i + B) * K + j + l) = rowAt X K (i + B) (j + l) := fun l => by rw [rowAt, add_assoc]
    congr 1
    · cases rms with
      | true => rfl
      | false =>
        funext d l
        simp only [Bool.false_eq_true, if_false]
        rcases Nat.lt_trichotomy d B with h1 | h1 | h1
        · rw [if_neg h1.ne, if_pos h1, if_pos (by omega)]
        · subst h1
          rw [if_pos rfl, if_neg (by omega), if_pos (by omega), e]
        · rw [if_neg (by omega), if_neg (by omega), if_neg (by omega)]
    · funext d l
      simp only
      rcases Nat.lt_trichotomy d B with h1 | h1 | h1
      · rw [if_neg h1.ne, if_pos h1, if_pos (by omega)]
      · subst h1
        rw [if_pos rfl, if_neg (by omega), if_pos (by omega), e]
      · rw [if_neg (by omega), if_neg (by omega), if_neg (by omega)]

/-- Sums of the lanes after `q` steps. -/
noncomputable def laneSum (f : ℝ → ℝ) (X : Buf ℝ) (K : ℤ) (VL q : ℕ) (r : ℤ) (l : ℕ) : ℝ :=
  ∑ k ∈ Finset.range q, f (rowAt X K r ((k * VL + l : ℕ) : ℤ))

theorem laneSum_total (f : ℝ → ℝ) (X : Buf ℝ) {K : ℤ} {VL q : ℕ} (hK : K = ((q * VL : ℕ) : ℤ)) (r : ℤ) :
    ∑ l ∈ Finset.range VL, laneSum f X K VL q r l = rowSum f X K r := by
  unfold laneSum rowSum
  rw [Finset.sum_comm]
  have h : K.toNat = q * VL := by omega
  rw [h]
  clear h hK
  induction q with
  | zero => simp
  | succ q ih => rw [Finset.sum_range_succ, ih, Nat.succ_mul, Finset.sum_range_add]

theorem starts_mul {VL : ℕ} (hV : 0 < VL) (q : ℕ) : starts 0 ((q * VL : ℕ) : ℤ) VL = (List.range q).map fun (k : ℕ) => (k : ℤ) * VL := by
  rw [starts_eq_range hV (q := q) (by push_cast; omega) (by push_cast; omega)]
  simp

theorem lnReduce_run (rms : Bool) (X : Buf ℝ) (n K : ℤ) (VL B : ℕ) (i : ℤ) (hi : 0 ≤ i) (hB : i + B ≤ n) :
    ∀ q : ℕ, (q : ℤ) * VL ≤ K →
      ∃ t : Reds2, ((List.range q).map fun (k : ℕ) => (k : ℤ) * VL).foldlM (fun t j => (List.range B).foldlM (fun t d => lnRedRow rms X n K VL i j t d) t)
        (⟨fun _ _ => 0, fun _ _ => 0⟩ : Reds2) = some t ∧
      (rms = false → ∀ d < B, ∀ l, t.r1 d l = laneSum (fun x => x) X K VL q (i + d) l) ∧
      ∀ d < B, ∀ l, t.r2 d l = laneSum (fun x => x * x) X K VL q (i + d) l
  | 0, _ => ⟨_, rfl, fun _ _ _ _ => by simp [laneSum], fun _ _ _ => by simp [laneSum]⟩
  | q + 1, h => by
    push_cast at h
    obtain ⟨t, e, h1, h2⟩ := lnReduce_run rms X n K VL B i hi hB q (by nlinarith)
    rw [List.range_succ, List.map_append]
    have e2 := lnRedRow_range rms X n K VL i (q * VL) hi (by positivity) (by linarith [h]) t B hB
    refine ⟨_, foldlM_snoc e e2, ?_, ?_⟩
    · rintro rfl d hd l
      simp only [Bool.false_eq_true, if_false]
      rw [if_pos hd, h1 rfl d hd, laneSum, laneSum, Finset.sum_range_succ]
      push_cast
      rfl
    · intro d hd l
      simp only
      rw [if_pos hd, h2 d hd, laneSum, laneSum, Finset.sum_range_succ]
      push_cast
      rfl

theorem vecReduction_sum {VL : ℕ} (hV : 0 < VL) (w : ℕ → ℝ) :
    vecReduction (· + ·) VL w = ∑ l ∈ Finset.range VL, w l := by
  obtain ⟨n, rfl⟩ := Nat.exists_eq_succ_of_ne_zero hV.ne'
  unfold vecReduction
  have : ∀ (L : List ℕ) (t : ℝ), L.foldl (fun t l => t + w (l + 1)) t = t + (L.map fun l => w (l + 1)).sum := by
    intro L
    induction L with
    | nil => intro t; simp
    | cons a L ih => intro t; rw [List.foldl_cons, ih, List.map_cons, List.sum_cons, add_assoc]
  rw [this, Finset.sum_range_succ', add_comm]
  congr 1

/-- Both reductions give the sums over the rows. -/
theorem lnReduce_spec (rms : Bool) (X : Buf ℝ) (n K : ℤ) (VL B : ℕ) (i : ℤ) (hi : 0 ≤ i) (hB : i + B ≤ n) (hV : 0 < VL) (hK : 0 ≤ K)
    (hd : (VL : ℤ) ∣ K) : ∃ t : Reds2, lnReduce rms X n K VL B i = some t ∧
      (rms = false → ∀ d < B, vecReduction (· + ·) VL (t.r1 d) = rowSum (fun x => x) X K (i + d)) ∧
      ∀ d < B, vecReduction (· + ·) VL (t.r2 d) = rowSum (fun x => x * x) X K (i + d) := by
  obtain ⟨q', hq⟩ := hd
  obtain ⟨q, rfl⟩ : ∃ q : ℕ, q' = q := ⟨q'.toNat, by
    have : 0 ≤ q' := by
      by_contra hc
      have : (VL : ℤ) * q' < 0 := mul_neg_of_pos_of_neg (by exact_mod_cast hV) (by omega)
      omega
    omega⟩
  have hK' : K = ((q * VL : ℕ) : ℤ) := by rw [hq]; push_cast; ring
  obtain ⟨t, e, h1, h2⟩ := lnReduce_run rms X n K VL B i hi hB q (by rw [hq]; linarith [mul_comm (q : ℤ) VL])
  refine ⟨t, ?_, ?_, ?_⟩
  · unfold lnReduce
    conv_lhs => rw [show starts 0 K VL = starts 0 ((q * VL : ℕ) : ℤ) VL by rw [hK']]
    rw [starts_mul hV]
    exact e
  · intro hr d hdB
    rw [vecReduction_sum hV, ← laneSum_total _ X hK']
    exact Finset.sum_congr rfl fun l _ => h1 hr d hdB l
  · intro d hdB
    rw [vecReduction_sum hV, ← laneSum_total _ X hK']
    exact Finset.sum_congr rfl fun l _ => h2 d hdB l

/-! ### Statistics -/

/-- Mean of a row as the program computes it. -/
noncomputable def rowMean (X : Buf ℝ) (K r : ℤ) : ℝ := rowSum (fun x => x) X K r / K

/-- Variance of a row, or its mean square. -/
noncomputable def rowVar (rms : Bool) (X : Buf ℝ) (K r : ℤ) : ℝ :=
  if rms then rowSum (fun x => x * x) X K r / K else rowSum (fun x => x * x) X K r / K - rowMean X K r * rowMean X K r

theorem rowVar_nonneg (rms : Bool) (X : Buf ℝ) {K : ℤ} (hK : 0 < K) (r : ℤ) : 0 ≤ rowVar rms X K r := by
  have hKr : (0 : ℝ) < K := by exact_mod_cast hK
  have hn : ((K.toNat : ℕ) : ℝ) = K := by
    have : ((K.toNat : ℕ) : ℤ) = K := by omega
    exact_mod_cast this
  have hsq : 0 ≤ rowSum (fun x => x * x) X K r := Finset.sum_nonneg fun p _ => mul_self_nonneg _
  unfold rowVar
  cases rms with
  | true => exact div_nonneg hsq hKr.le
  | false =>
    simp only [Bool.false_eq_true, if_false]
    have h := sq_le X K r hn
    unfold rowMean
    rw [div_mul_div_comm, sub_nonneg, div_le_div_iff₀ (by positivity) hKr]
    have h2 := mul_le_mul_of_nonneg_right h hKr.le
    nlinarith [h2]
where
  sq_le (X : Buf ℝ) (K r : ℤ) (hn : ((K.toNat : ℕ) : ℝ) = K) : rowSum (fun x => x) X K r * rowSum (fun x => x) X K r ≤ K * rowSum (fun x => x * x) X K r := by
    have h := sq_sum_le_card_mul_sum_sq (s := Finset.range K.toNat) (f := fun p : ℕ => rowAt X K r p)
    rw [Finset.card_range, hn] at h
    unfold rowSum
    simp only [pow_two] at h
    exact h

/-- Inverse standard deviation of a row. -/
noncomputable def rowInv (rms : Bool) (X : Buf ℝ) (K : ℤ) (eps : ℝ) (r : ℤ) : ℝ := 1 / Real.sqrt (rowVar rms X K r + eps)

/-- The mean subtracted from a row. -/
noncomputable def rowShift (rms : Bool) (X : Buf ℝ) (K r : ℤ) : ℝ := if rms then 0 else rowMean X K r

theorem lnStats_spec (rms : Bool) (X : Buf ℝ) {K : ℤ} (hK : 0 < K) {eps : ℝ} (he : 0 < eps) (VL : ℕ) (t : Reds2) (d : ℕ) (r : ℤ)
    (h1 : rms = false → vecReduction (· + ·) VL (t.r1 d) = rowSum (fun x => x) X K r)
    (h2 : vecReduction (· + ·) VL (t.r2 d) = rowSum (fun x => x * x) X K r) :
    lnStats rms K eps VL t d = some (rowShift rms X K r, rowInv rms X K eps r) := by
  have hKr : (K : ℝ) ≠ 0 := by exact_mod_cast hK.ne'
  have hv : 0 < rowVar rms X K r + eps := by linarith [rowVar_nonneg rms X hK r]
  have hs : Real.sqrt (rowVar rms X K r + eps) ≠ 0 := (Real.sqrt_pos.2 hv).ne'
  unfold lnStats
  cases rms with
  | true =>
    simp only [if_true]
    rw [Option.bind_some, h2, fdiv_eq hKr, Option.bind_some]
    have e : rowSum (fun x => x * x) X K r / K = rowVar true X K r := by simp [rowVar]
    rw [e, fsqrt_eq hv.le, Option.bind_some, fdiv_eq hs]
    simp [rowShift, rowInv]
  | false =>
    simp only [Bool.false_eq_true, if_false]
    rw [h1 rfl, h2, fdiv_eq hKr, Option.bind_some, fdiv_eq hKr, Option.bind_some]
    have e : rowSum (fun x => x * x) X K r / K - rowSum (fun x => x) X K r / K * (rowSum (fun x => x) X K r / K) =
        rowVar false X K r := by simp [rowVar, rowMean]
    rw [e, fsqrt_eq hv.le, Option.bind_some, fdiv_eq hs]
    simp [rowShift, rowInv, rowMean]

/-! ### Stores -/

theorem vstore2_wrote {n K : ℤ} {VL : ℕ} {i j : ℤ} {v : ℕ → ℝ} {val : ℤ → ℝ} {o : Buf ℝ} (hs : o.size = n * K) (hi : 0 ≤ i) (hin : i < n)
    (hj : 0 ≤ j) (hjK : j + VL ≤ K) (hv : ∀ l < VL, v l = val (i * K + j + l)) :
    ∃ o', vstore2 o n K VL i j v = some o' ∧ Wrote val (fun y => i * K + j ≤ y ∧ y < i * K + j + VL) o o' := by
  unfold vstore2
  rw [if_pos ⟨hi, hin, hj, hjK⟩]
  refine vstore_wrote ?_ ?_ ?_
  · exact add_nonneg (mul_nonneg hi (by omega)) hj
  · rw [hs]; nlinarith
  · exact hv

theorem Wrote.mono_iff {val : ℤ → ℝ} {S T : ℤ → Prop} {o o' : Buf ℝ} (h : Wrote val S o o') (hST : ∀ y, S y ↔ T y) : Wrote val T o o' :=
  ⟨h.1, fun y hy => h.2.1 y ((hST y).2 hy), fun y hy => h.2.2 y fun hs => hy ((hST y).1 hs)⟩

theorem dvd_fits {V : ℕ} (hV : 0 < V) {j K : ℤ} (h1 : (V : ℤ) ∣ j) (h2 : (V : ℤ) ∣ K) (h : j < K) : j + V ≤ K := by
  obtain ⟨a, ha⟩ := h2
  obtain ⟨b, hb⟩ := h1
  have hVz : (0 : ℤ) < V := by exact_mod_cast hV
  have : b < a := by
    by_contra hc
    have := mul_le_mul_of_nonneg_left (not_lt.1 hc) hVz.le
    omega
  have := mul_le_mul_of_nonneg_left (show b + 1 ≤ a by omega) hVz.le
  rw [mul_add, mul_one] at this
  omega

/-- The values of scale and bias for the whole row. -/
structure OpVals (o : LnOperand) (n K : ℤ) (VL : ℕ) (S : ℤ → ℤ → ℝ) : Prop where
  load : ∀ r j, 0 ≤ r → r < n → 0 ≤ j → j + VL ≤ K → ∃ f, o.load VL r j = some f ∧ ∀ l < VL, f l = S r (j + l)

/-- The normalised value at position `y`. -/
noncomputable def normVal (rms : Bool) (X : Buf ℝ) (K : ℤ) (eps : ℝ) (S T : ℤ → ℤ → ℝ) (y : ℤ) : ℝ :=
  (X.data y - rowShift rms X K (y / K)) * rowInv rms X K eps (y / K) * S (y / K) (y % K) + T (y / K) (y % K)

theorem row_div {K r p : ℤ} (h0 : 0 ≤ p) (h1 : p < K) : (r * K + p) / K = r ∧ (r * K + p) % K = p := by
  have hK : K ≠ 0 := by omega
  constructor
  · rw [add_comm, Int.add_mul_ediv_right _ _ hK, Int.ediv_eq_zero_of_lt h0 h1, zero_add]
  · rw [add_comm, Int.add_mul_emod_self_right, Int.emod_eq_of_lt h0 h1]

theorem lnNormRow_spec (rms : Bool) (X : Buf ℝ) (scale : LnOperand) (bias : Option LnOperand) {n K : ℤ} {VL : ℕ} {eps : ℝ} {i j : ℤ}
    {st : List (ℝ × ℝ)} {S T : ℤ → ℤ → ℝ} (hS : OpVals scale n K VL S)
    (hT : ∀ r j, 0 ≤ r → r < n → 0 ≤ j → j + VL ≤ K → ∃ f, biasLoad bias VL r j = some f ∧ ∀ l < VL, f l = T r (j + l))
    {d : ℕ} (hi : 0 ≤ i) (hd : i + d < n) (hj : 0 ≤ j) (hjK : j + VL ≤ K)
    (hst : st.getD d (0, 0) = (rowShift rms X K (i + d), rowInv rms X K eps (i + d))) (Y : Buf ℝ) (hY : Y.size = n * K) :
    ∃ Y', lnNormRow rms X scale bias n K VL i j st Y d = some Y' ∧
      Wrote (normVal rms X K eps S T) (fun y => (i + d) * K + j ≤ y ∧ y < (i + d) * K + j + VL) Y Y' := by
  obtain ⟨fs, es, hs⟩ := hS.load (i + d) j (by omega) hd hj hjK
  obtain ⟨ft, et, ht⟩ := hT (i + d) j (by omega) hd hj hjK
  unfold lnNormRow vload2
  rw [if_pos ⟨by omega, hd, hj, hjK⟩, Option.bind_some, es, Option.bind_some, et, Option.bind_some, hst]
  refine vstore2_wrote hY (by omega) hd hj hjK ?_
  intro l hl
  have hp := row_div (K := K) (r := i + d) (p := j + l) (by omega) (by omega)
  rw [← add_assoc] at hp
  unfold normVal
  rw [hp.1, hp.2, hs l hl, ht l hl]
  cases rms <;> simp [rowShift]

theorem lnNorm_spec (rms : Bool) (X : Buf ℝ) (scale : LnOperand) (bias : Option LnOperand) {n K : ℤ} {VL B : ℕ} {eps : ℝ} {i : ℤ}
    {st : List (ℝ × ℝ)} {S T : ℤ → ℤ → ℝ} (hS : OpVals scale n K VL S)
    (hT : ∀ r j, 0 ≤ r → r < n → 0 ≤ j → j + VL ≤ K → ∃ f, biasLoad bias VL r j = some f ∧ ∀ l < VL, f l = T r (j + l))
    (hi : 0 ≤ i) (hB : i + B ≤ n) (hV : 0 < VL) (hdvd : (VL : ℤ) ∣ K)
    (hst : ∀ d < B, st.getD d (0, 0) = (rowShift rms X K (i + d), rowInv rms X K eps (i + d))) (Y : Buf ℝ) (hY : Y.size = n * K) :
    ∃ Y', lnNorm rms X scale bias n K VL B i st Y = some Y' ∧
      Wrote (normVal rms X K eps S T) (fun y => i * K ≤ y ∧ y < (i + B) * K) Y Y' := by
  unfold lnNorm
  obtain ⟨Y', e, w⟩ := Wrote.list (val := normVal rms X K eps S T) (sz := n * K)
    (S := fun (j y : ℤ) => ∃ d ∈ List.range B, (i + (d : ℕ)) * K + j ≤ y ∧ y < (i + (d : ℕ)) * K + j + VL)
    (f := fun Y j => (List.range B).foldlM (fun Y d => lnNormRow rms X scale bias n K VL i j st Y d) Y) (starts 0 K VL) Y hY (by
      intro j hj Y hY
      obtain ⟨h0, h1, h2⟩ := (mem_starts_dvd hV).1 hj
      have hjK : j + VL ≤ K := by
        rw [sub_zero] at h2
        exact dvd_fits hV h2 hdvd h1
      refine Wrote.list (S := fun (d : ℕ) (y : ℤ) => (i + (d : ℕ)) * K + j ≤ y ∧ y < (i + (d : ℕ)) * K + j + VL) (List.range B) Y hY ?_
      intro d hd Y hY
      rw [List.mem_range] at hd
      exact lnNormRow_spec rms X scale bias hS hT hi (by omega) h0 hjK (hst d hd) Y hY)
  refine ⟨Y', e, w.mono_iff fun y => ⟨?_, ?_⟩⟩
  · rintro ⟨j, hj, d, hd, h1, h2⟩
    obtain ⟨h0, h3, h4⟩ := (mem_starts_dvd hV).1 hj
    rw [List.mem_range] at hd
    rw [sub_zero] at h4
    have hf := dvd_fits hV h4 hdvd h3
    have hK : 0 ≤ K := by omega
    have e1 := mul_le_mul_of_nonneg_right (show i ≤ i + (d : ℤ) by omega) hK
    have e2 := mul_le_mul_of_nonneg_right (show i + (d : ℤ) + 1 ≤ i + B by omega) hK
    rw [add_mul _ 1, one_mul] at e2
    constructor <;> omega
  · rintro ⟨h1, h2⟩
    have hK : 0 < K := by
      by_contra hc
      have := mul_nonpos_of_nonneg_of_nonpos (show (0 : ℤ) ≤ B by omega) (not_lt.1 hc)
      rw [add_mul] at h2
      omega
    have hr1 : i ≤ y / K := (Int.le_ediv_iff_mul_le hK).2 h1
    have hr2 : y / K < i + B := (Int.ediv_lt_iff_lt_mul hK).2 h2
    have hm := Int.emod_nonneg y hK.ne'
    have hm2 := Int.emod_lt_of_pos y hK
    have hy : y / K * K + y % K = y := Int.ediv_mul_add_emod y K
    have hV' : (0 : ℤ) < VL := by exact_mod_cast hV
    have hq := Int.ediv_mul_add_emod (y % K) VL
    have hq1 := Int.emod_nonneg (y % K) hV'.ne'
    have hq2 := Int.emod_lt_of_pos (y % K) hV'
    have hq3 := mul_nonneg (Int.ediv_nonneg hm hV'.le) hV'.le
    refine ⟨y % K / VL * VL, (mem_starts_dvd hV).2 ⟨hq3, by omega, by rw [sub_zero]; exact Dvd.intro_left _ rfl⟩, (y / K - i).toNat,
      List.mem_range.2 (by omega), ?_⟩
    have : i + (((y / K - i).toNat : ℕ) : ℤ) = y / K := by omega
    rw [this]
    constructor <;> omega

/-- What a block of rows leaves in an optional statistic. -/
def SavedOpt (v : ℤ → ℝ) (S : ℤ → Prop) : Option (Buf ℝ) → Option (Buf ℝ) → Prop
  | none, m' => m' = none
  | some m, m' => ∃ b, m' = some b ∧ Wrote v S m b

theorem lnSave_spec {n i : ℤ} {B : ℕ} {v : ℕ → ℝ} {val : ℤ → ℝ} (hi : 0 ≤ i) (hB : i + B ≤ n) (hv : ∀ d < B, v d = val (i + d))
    (m : Option (Buf ℝ)) (hm : ∀ b, m = some b → b.size = n) :
    ∃ m', lnSave n B i v m = some m' ∧ SavedOpt val (fun r => i ≤ r ∧ r < i + B) m m' := by
  cases m with
  | none => exact ⟨none, rfl, rfl⟩
  | some b =>
    unfold lnSave
    simp only
    obtain ⟨b', e, w⟩ := Wrote.list (val := val) (sz := n) (S := fun (d : ℕ) (y : ℤ) => y = i + d)
      (f := fun m (d : ℕ) => vstore2 m n 1 1 (i + d) 0 fun _ => v d) (List.range B) b (hm b rfl) (by
        intro d hd o ho
        rw [List.mem_range] at hd
        obtain ⟨o', e, w⟩ := vstore2_wrote (n := n) (K := 1) (VL := 1) (i := i + d) (j := 0) (v := fun _ => v d) (val := val) (o := o)
          (by omega) (by omega) (by omega) (by omega) (by omega) (by
            intro l hl
            rw [hv d hd]
            congr 1
            omega)
        exact ⟨o', e, w.mono_iff fun y => by omega⟩)
    refine ⟨some b', by rw [e]; rfl, b', rfl, w.mono_iff fun y => ⟨?_, ?_⟩⟩
    · rintro ⟨d, hd, rfl⟩
      rw [List.mem_range] at hd
      omega
    · rintro ⟨h1, h2⟩
      exact ⟨(y - i).toNat, List.mem_range.2 (by omega), by omega⟩

theorem SavedOpt.size {v : ℤ → ℝ} {S : ℤ → Prop} {m m' : Option (Buf ℝ)} {n : ℤ} (h : SavedOpt v S m m')
    (hm : ∀ b, m = some b → b.size = n) : ∀ b, m' = some b → b.size = n := by
  intro b hb
  cases m with
  | none => rw [show m' = none from h] at hb; cases hb
  | some c =>
    obtain ⟨b', e, w⟩ := h
    rw [e] at hb
    cases hb
    rw [w.1, hm c rfl]

theorem SavedOpt.isSome {v : ℤ → ℝ} {S : ℤ → Prop} {m m' : Option (Buf ℝ)} (h : SavedOpt v S m m') : m'.isSome = m.isSome := by
  cases m with
  | none => rw [show m' = none from h]
  | some c => obtain ⟨b, rfl, _⟩ := h; rfl

theorem SavedOpt.val {v : ℤ → ℝ} {S : ℤ → Prop} {m m' : Option (Buf ℝ)} (h : SavedOpt v S m m') {b : Buf ℝ} (hb : m' = some b) :
    ∀ r, S r → b.data r = v r := by
  cases m with
  | none => rw [show m' = none from h] at hb; cases hb
  | some c =>
    obtain ⟨b', e, w⟩ := h
    rw [e] at hb
    cases hb
    exact w.2.1

theorem Wrote.trans {val : ℤ → ℝ} {S T : ℤ → Prop} {a b c : Buf ℝ} (h1 : Wrote val S a b) (h2 : Wrote val T b c) :
    Wrote val (fun y => S y ∨ T y) a c := by
  refine ⟨h2.1.trans h1.1, ?_, ?_⟩
  · intro y hy
    by_cases ht : T y
    · exact h2.2.1 y ht
    · rw [h2.2.2 y ht]
      exact h1.2.1 y (hy.resolve_right ht)
  · intro y hy
    rw [h2.2.2 y fun h => hy (Or.inr h), h1.2.2 y fun h => hy (Or.inl h)]

theorem SavedOpt.trans {v : ℤ → ℝ} {S T : ℤ → Prop} {a b c : Option (Buf ℝ)} (h1 : SavedOpt v S a b) (h2 : SavedOpt v T b c) :
    SavedOpt v (fun y => S y ∨ T y) a c := by
  cases a with
  | none =>
    rw [show b = none from h1] at h2
    exact h2
  | some x =>
    obtain ⟨y, rfl, w1⟩ := h1
    obtain ⟨z, rfl, w2⟩ := h2
    exact ⟨z, rfl, w1.trans w2⟩

theorem SavedOpt.mono_iff {v : ℤ → ℝ} {S T : ℤ → Prop} {a b : Option (Buf ℝ)} (h : SavedOpt v S a b) (hST : ∀ y, S y ↔ T y) :
    SavedOpt v T a b := by
  cases a with
  | none => exact h
  | some x =>
    obtain ⟨y, e, w⟩ := h
    exact ⟨y, e, w.mono_iff hST⟩

/-! ### Blocks of rows -/

/-- Sizes of the outputs. -/
structure LnSized (n K : ℤ) (o : LnOut) : Prop where
  Y : o.Y.size = n * K
  mean : ∀ b, o.mean = some b → b.size = n
  inv : ∀ b, o.inv = some b → b.size = n

/-- The rows in `R` have been processed. -/
structure LnDid (rms : Bool) (X : Buf ℝ) (K : ℤ) (eps : ℝ) (S T : ℤ → ℤ → ℝ) (R : ℤ → Prop) (o o' : LnOut) : Prop where
  Y : Wrote (normVal rms X K eps S T) (fun y => R (y / K)) o.Y o'.Y
  mean : SavedOpt (rowMean X K) (fun r => rms = false ∧ R r) o.mean o'.mean
  inv : SavedOpt (rowInv rms X K eps) R o.inv o'.inv

theorem LnDid.sized {rms : Bool} {X : Buf ℝ} {n K : ℤ} {eps : ℝ} {S T : ℤ → ℤ → ℝ} {R : ℤ → Prop} {o o' : LnOut}
    (h : LnDid rms X K eps S T R o o') (ho : LnSized n K o) : LnSized n K o' :=
  ⟨h.Y.1.trans ho.Y, h.mean.size ho.mean, h.inv.size ho.inv⟩

theorem SavedOpt.refl (v : ℤ → ℝ) (S : ℤ → Prop) (hS : ∀ y, ¬ S y) (a : Option (Buf ℝ)) : SavedOpt v S a a := by
  cases a with
  | none => rfl
  | some x => exact ⟨x, rfl, rfl, fun y hy => absurd hy (hS y), fun _ _ => rfl⟩

theorem LnDid.list {α : Type*} {rms : Bool} {X : Buf ℝ} {n K : ℤ} {eps : ℝ} {S T : ℤ → ℤ → ℝ} {R : α → ℤ → Prop} {f : LnOut → α → Option LnOut} :
    ∀ (L : List α) (o : LnOut), LnSized n K o → (∀ a ∈ L, ∀ o, LnSized n K o → ∃ o', f o a = some o' ∧ LnDid rms X K eps S T (R a) o o') →
      ∃ o', L.foldlM f o = some o' ∧ LnDid rms X K eps S T (fun r => ∃ a ∈ L, R a r) o o'
  | [], o, _, _ => ⟨o, rfl, ⟨rfl, fun y hy => by obtain ⟨_, h, _⟩ := hy; simp at h, fun _ _ => rfl⟩,
      SavedOpt.refl _ _ (fun y hy => by obtain ⟨_, _, h, _⟩ := hy; simp at h) _,
      SavedOpt.refl _ _ (fun y hy => by obtain ⟨_, h, _⟩ := hy; simp at h) _⟩
  | a :: L, o, ho, h => by
    obtain ⟨o1, e1, w1⟩ := h a (by simp) o ho
    obtain ⟨o2, e2, w2⟩ := LnDid.list L o1 (w1.sized ho) fun b hb => h b (by simp [hb])
    refine ⟨o2, by rw [List.foldlM_cons, e1]; exact e2, ?_, ?_, ?_⟩
    · exact (w1.Y.trans w2.Y).mono_iff fun y => by simp
    · exact (w1.mean.trans w2.mean).mono_iff fun y => by simp; tauto
    · exact (w1.inv.trans w2.inv).mono_iff fun y => by simp

theorem lnIter_spec (rms : Bool) (X : Buf ℝ) (scale : LnOperand) (bias : Option LnOperand) {n K : ℤ} {VL B : ℕ} {eps : ℝ} {i : ℤ}
    {S T : ℤ → ℤ → ℝ} (hS : OpVals scale n K VL S)
    (hT : ∀ r j, 0 ≤ r → r < n → 0 ≤ j → j + VL ≤ K → ∃ f, biasLoad bias VL r j = some f ∧ ∀ l < VL, f l = T r (j + l))
    (hi : 0 ≤ i) (hB : i + B ≤ n) (hV : 0 < VL) (hK : 0 < K) (hdvd : (VL : ℤ) ∣ K) (he : 0 < eps) (o : LnOut) (ho : LnSized n K o) :
    ∃ o', lnIter rms X scale bias n K eps VL B i o = some o' ∧ LnDid rms X K eps S T (fun r => i ≤ r ∧ r < i + B) o o' := by
  obtain ⟨t, et, h1, h2⟩ := lnReduce_spec rms X n K VL B i hi hB hV hK.le hdvd
  have hst : (List.range B).mapM (fun d => lnStats rms K eps VL t d) =
      some ((List.range B).map fun (d : ℕ) => (rowShift rms X K (i + d), rowInv rms X K eps (i + d))) :=
    mapM_some _ _ _ fun d hd => by
      rw [List.mem_range] at hd
      exact lnStats_spec rms X hK he VL t d (i + d) (fun hr => h1 hr d hd) (h2 d hd)
  have hget : ∀ d < B, ((List.range B).map fun (d : ℕ) => (rowShift rms X K (i + d), rowInv rms X K eps (i + d))).getD d (0, 0) =
      (rowShift rms X K (i + d), rowInv rms X K eps (i + d)) := by
    intro d hd
    simp [List.getD_eq_getElem?_getD, hd]
  obtain ⟨Y', eY, wY⟩ := lnNorm_spec rms X scale bias hS hT hi hB hV hdvd hget o.Y ho.Y
  have hY : Wrote (normVal rms X K eps S T) (fun y => i ≤ y / K ∧ y / K < i + B) o.Y Y' :=
    wY.mono_iff fun y => by rw [Int.le_ediv_iff_mul_le hK, Int.ediv_lt_iff_lt_mul hK]
  obtain ⟨s', es, ws⟩ := lnSave_spec (v := fun d => (((List.range B).map fun (d : ℕ) =>
      (rowShift rms X K (i + d), rowInv rms X K eps (i + d))).getD d (0, 0)).2) (val := rowInv rms X K eps) hi hB
    (fun d hd => by rw [hget d hd]) o.inv ho.inv
  unfold lnIter
  rw [et, Option.bind_some, hst, Option.bind_some, eY, Option.bind_some]
  cases rms with
  | true =>
    simp only [if_true]
    rw [Option.bind_some, es, Option.map_some]
    exact ⟨_, rfl, hY, SavedOpt.refl _ _ (fun y hy => by simp at hy) _, ws⟩
  | false =>
    obtain ⟨m', em, wm⟩ := lnSave_spec (v := fun d => (((List.range B).map fun (d : ℕ) =>
        (rowShift false X K (i + d), rowInv false X K eps (i + d))).getD d (0, 0)).1) (val := rowMean X K) hi hB
      (fun d hd => by rw [hget d hd]; simp [rowShift]) o.mean ho.mean
    simp only [Bool.false_eq_true, if_false]
    rw [em, Option.bind_some, es, Option.map_some]
    exact ⟨_, rfl, hY, wm.mono_iff fun y => by simp, ws⟩

/-- All rows are processed. -/
theorem lnSimd_rows (rms lit : Bool) (X : Buf ℝ) (scale : LnOperand) (bias : Option LnOperand) {n K : ℤ} {VL B : ℕ} {eps : ℝ}
    {S T : ℤ → ℤ → ℝ} (hS : OpVals scale n K VL S)
    (hT : ∀ r j, 0 ≤ r → r < n → 0 ≤ j → j + VL ≤ K → ∃ f, biasLoad bias VL r j = some f ∧ ∀ l < VL, f l = T r (j + l))
    (hB : 0 < B) (hV : 0 < VL) (hK : 0 < K) (hdvd : (VL : ℤ) ∣ K) (he : 0 < eps) (o : LnOut) (ho : LnSized n K o) :
    ∃ o', lnSimd rms lit X scale bias n K eps VL B o = some o' ∧ LnDid rms X K eps S T (fun r => 0 ≤ r ∧ r < n) o o' := by
  unfold lnSimd
  obtain ⟨o', e, w⟩ := LnDid.list (rms := rms) (X := X) (eps := eps) (S := S) (T := T) (R := fun (i r : ℤ) => i ≤ r ∧ r < i + B ∧ r < n)
    (f := fun o i =>
    if tileFull lit i B n then lnIter rms X scale bias n K eps VL B i o
    else (rangeList i n).foldlM (fun o r => lnIter rms X scale bias n K eps VL 1 r o) o) (starts 0 n B) o ho (by
      intro i hi o ho
      obtain ⟨h0, h1, h2⟩ := (mem_starts_dvd hB).1 hi
      rw [sub_zero] at h2
      have hB' : (0 : ℤ) < B := by exact_mod_cast hB
      by_cases ht : tileFull lit i B n = true
      · have hf : i + B ≤ n := by
          unfold tileFull at ht
          split at ht
          · rename_i hc
            exact dvd_fits hB h2 (Int.dvd_of_emod_eq_zero hc.2) h1
          · have := of_decide_eq_true ht
            omega
        simp only [ht, if_true]
        obtain ⟨o', e, w⟩ := lnIter_spec rms X scale bias hS hT h0 hf hV hK hdvd he o ho
        refine ⟨o', e, w.Y.mono_iff fun y => ?_, w.mean.mono_iff fun y => ?_, w.inv.mono_iff fun y => ?_⟩
        · constructor
          · rintro ⟨h3, h4⟩; exact ⟨h3, h4, by omega⟩
          · rintro ⟨h3, h4, _⟩; exact ⟨h3, h4⟩
        · constructor
          · rintro ⟨hr, h3, h4⟩; exact ⟨hr, h3, h4, by omega⟩
          · rintro ⟨hr, h3, h4, _⟩; exact ⟨hr, h3, h4⟩
        · constructor
          · rintro ⟨h3, h4⟩; exact ⟨h3, h4, by omega⟩
          · rintro ⟨h3, h4, _⟩; exact ⟨h3, h4⟩
      · have hlt : n < i + B := by
          unfold tileFull at ht
          split at ht
          · exact absurd rfl ht
          · have := mt decide_eq_true ht
            omega
        simp only [ht]
        obtain ⟨o', e, w⟩ := LnDid.list (rms := rms) (X := X) (eps := eps) (S := S) (T := T) (R := fun (r r' : ℤ) => r ≤ r' ∧ r' < r + (1 : ℕ))
          (f := fun o r => lnIter rms X scale bias n K eps VL 1 r o) (rangeList i n) o ho (by
            intro r hr o ho
            rw [mem_rangeList] at hr
            exact lnIter_spec rms X scale bias hS hT (by omega) (by push_cast; omega) hV hK hdvd he o ho)
        have hiff : ∀ y, (∃ a ∈ rangeList i n, a ≤ y ∧ y < a + ((1 : ℕ) : ℤ)) ↔ i ≤ y ∧ y < i + B ∧ y < n := by
          intro y
          constructor
          · rintro ⟨a, ha, h3, h4⟩
            rw [mem_rangeList] at ha
            push_cast at h4
            omega
          · rintro ⟨h3, h4, h5⟩
            exact ⟨y, mem_rangeList.2 ⟨h3, h5⟩, le_refl _, by push_cast; omega⟩
        exact ⟨o', e, w.Y.mono_iff fun y => hiff _, w.mean.mono_iff fun y => and_congr_right fun _ => hiff y, w.inv.mono_iff hiff⟩)
  have hiff : ∀ r, (∃ i ∈ starts 0 n B, i ≤ r ∧ r < i + (B : ℤ) ∧ r < n) ↔ 0 ≤ r ∧ r < n := by
    intro r
    have hB' : (0 : ℤ) < B := by exact_mod_cast hB
    constructor
    · rintro ⟨i, hi, h1, _, h3⟩
      obtain ⟨h0, _, _⟩ := (mem_starts_dvd hB).1 hi
      omega
    · rintro ⟨h0, h1⟩
      have hq := Int.ediv_mul_add_emod r B
      have hq1 := Int.emod_nonneg r hB'.ne'
      have hq2 := Int.emod_lt_of_pos r hB'
      have hq3 := mul_nonneg (Int.ediv_nonneg h0 hB'.le) hB'.le
      exact ⟨r / B * B, (mem_starts_dvd hB).2 ⟨hq3, by omega, by rw [sub_zero]; exact Dvd.intro_left _ rfl⟩, by omega, by omega, h1⟩
  exact ⟨o', e, w.Y.mono_iff fun y => hiff _, w.mean.mono_iff fun y => and_congr_right fun _ => hiff y, w.inv.mono_iff hiff⟩

end Verif.Lower
