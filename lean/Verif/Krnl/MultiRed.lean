import Mathlib.Algebra.BigOperators.Intervals
import Mathlib.Data.List.GetD
import Mathlib.Tactic.Linarith
import Mathlib.Tactic.Ring
import Mathlib.Algebra.Order.Ring.Nat

/-!
Model of `VectorBuilder::mergeHigh`, `mergeLow` and `multiReduction`
(/repo/src/Dialect/Mlir/DialectBuilder.cpp 2024-2187): the reduction of groups of
`VL` vectors of `VL` lanes to one vector whose lane `q` is the reduction of all
the lanes of vector `q`.

Vectors are functions on lane numbers.  Assertions on lengths are hypotheses of
the theorems.
-/

namespace Verif.Krnl

variable {R : Type*}

/-- The shuffle mask built by `mergeHigh` (`half = 0`, lines 2033-2045) and
`mergeLow` (`half = VL / 2`, lines 2059-2070). -/
def mergeMask (VL step half : ℕ) : List ℕ :=
  (List.range (VL / (2 * step))).flatMap fun p =>
    ((List.range step).map fun e => half + p * step + e) ++
      (List.range step).map fun e => half + VL + p * step + e

/-- `vector.shuffle` of two vectors of `VL` lanes: lane numbers from `VL` on
select from the second one. -/
def shuffle (VL : ℕ) (lhs rhs : ℕ → R) (mask : List ℕ) (i : ℕ) : R :=
  if mask.getD i 0 < VL then lhs (mask.getD i 0) else rhs (mask.getD i 0 - VL)

/-- `mergeHigh` (lines 2024-2047). -/
def mergeHigh (VL step : ℕ) (lhs rhs : ℕ → R) : ℕ → R :=
  shuffle VL lhs rhs (mergeMask VL step 0)

/-- `mergeLow` (lines 2049-2072). -/
def mergeLow (VL step : ℕ) (lhs rhs : ℕ → R) : ℕ → R :=
  shuffle VL lhs rhs (mergeMask VL step (VL / 2))

/-- The loop over pairs (lines 2174-2181), in place in `tmpArray`. -/
def pairStage (op : R → R → R) (VL step r numPairs : ℕ) (tmp : ℕ → ℕ → R) : ℕ → ℕ → R :=
  (List.range numPairs).foldl (fun t p =>
    Function.update t (r + p) fun i =>
      op (mergeHigh VL step (t (r + 2 * p)) (t (r + 2 * p + 1)) i)
        (mergeLow VL step (t (r + 2 * p)) (t (r + 2 * p + 1)) i)) tmp

/-- The loop on `step` (lines 2172-2183); `fuel` bounds the number of turns. -/
def stages (op : R → R → R) (VL r : ℕ) : ℕ → ℕ → ℕ → (ℕ → ℕ → R) → ℕ → ℕ → R
  | 0, _, _, tmp => tmp
  | fuel + 1, step, numPairs, tmp =>
    if step < VL then
      stages op VL r fuel (step * 2) (numPairs / 2) (pairStage op VL step r numPairs tmp)
    else tmp

/-- The outer loop (lines 2166-2186) over the groups of `VL` vectors: the final
`tmpArray` and the output vectors. -/
def multiReductionLoop (op : R → R → R) (VL : ℕ) : ℕ → (ℕ → ℕ → R) → ℕ →
    List (ℕ → R)
  | 0, _, _ => []
  | groups + 1, tmp, r =>
    stages op VL r VL 1 (VL / 2) tmp r ::
      multiReductionLoop op VL groups (stages op VL r VL 1 (VL / 2) tmp) (r + VL)

/-- `multiReduction` (lines 2140-2187) of `N` vectors. -/
def multiReduction (op : R → R → R) (VL N : ℕ) (inp : ℕ → ℕ → R) : List (ℕ → R) :=
  multiReductionLoop op VL (N / VL) inp 0

/-! ### Lemmas -/

theorem flatMap_getD_uniform (f : ℕ → List ℕ) (w : ℕ) (hf : ∀ p, (f p).length = w) :
    ∀ (n p e : ℕ), p < n → e < w → ((List.range n).flatMap f).getD (p * w + e) 0 = (f p).getD e 0 := by
  intro n
  induction n with
  | zero => intro p e hp; omega
  | succ n ih =>
    intro p e hp he
    have hlen : ((List.range n).flatMap f).length = n * w := by
      rw [List.length_flatMap]
      simp [hf]
    rw [List.range_succ, List.flatMap_append]
    by_cases hpn : p < n
    · rw [List.getD_append]
      · exact ih p e hpn he
      · rw [hlen]
        have : (p + 1) * w ≤ n * w := Nat.mul_le_mul_right w hpn
        rw [Nat.add_mul] at this
        omega
    · have : p = n := by omega
      subst this
      rw [List.getD_append_right]
      · rw [hlen]
        simp
      · rw [hlen]; omega

theorem mergeMask_lo {VL step half p e : ℕ} (hp : p < VL / (2 * step)) (he : e < step) :
    (mergeMask VL step half).getD (p * (2 * step) + e) 0 = half + p * step + e := by
  unfold mergeMask
  rw [flatMap_getD_uniform _ (2 * step) (by intro p; simp; omega) _ p e hp (by omega)]
  rw [List.getD_append _ _ _ _ (by simpa using he)]
  simp [he]

theorem mergeMask_hi {VL step half p e : ℕ} (hp : p < VL / (2 * step)) (he : e < step) :
    (mergeMask VL step half).getD (p * (2 * step) + (step + e)) 0 = half + VL + p * step + e := by
  unfold mergeMask
  rw [flatMap_getD_uniform _ (2 * step) (by intro p; simp; omega) _ p _ hp (by omega)]
  rw [List.getD_append_right _ _ _ _ (by simp)]
  simp [he]

/-- What one pair produces. -/
theorem red_lo (op : R → R → R) {s W' p e : ℕ} (l r : ℕ → R)
    (hp : p < W') (he : e < s) :
    op (mergeHigh (2 * s * W') s l r (p * (2 * s) + e))
      (mergeLow (2 * s * W') s l r (p * (2 * s) + e)) =
    op (l (p * s + e)) (l ((p + W') * s + e)) := by
  have hs : 0 < s := by omega
  have hdiv : 2 * s * W' / (2 * s) = W' := Nat.mul_div_cancel_left _ (by omega)
  have hp' : p < 2 * s * W' / (2 * s) := by omega
  have hhalf : 2 * s * W' / 2 = W' * s := by
    rw [mul_assoc, Nat.mul_div_cancel_left _ (by norm_num)]; ring
  have h1 : (p + 1) * s ≤ W' * s := Nat.mul_le_mul_right s hp
  rw [Nat.add_mul] at h1
  have h2 : 2 * s * W' = 2 * (W' * s) := by ring
  have hadd : (p + W') * s = p * s + W' * s := by ring
  unfold mergeHigh mergeLow shuffle
  rw [mergeMask_lo hp' he, mergeMask_lo hp' he, hhalf, if_pos (by omega), if_pos (by omega)]
  rw [hadd]
  congr 2 <;> omega

theorem red_hi (op : R → R → R) {s W' p e : ℕ} (l r : ℕ → R)
    (hp : p < W') (he : e < s) :
    op (mergeHigh (2 * s * W') s l r (p * (2 * s) + (s + e)))
      (mergeLow (2 * s * W') s l r (p * (2 * s) + (s + e))) =
    op (r (p * s + e)) (r ((p + W') * s + e)) := by
  have hs : 0 < s := by omega
  have hdiv : 2 * s * W' / (2 * s) = W' := Nat.mul_div_cancel_left _ (by omega)
  have hp' : p < 2 * s * W' / (2 * s) := by omega
  have hhalf : 2 * s * W' / 2 = W' * s := by
    rw [mul_assoc, Nat.mul_div_cancel_left _ (by norm_num)]; ring
  have hadd : (p + W') * s = p * s + W' * s := by ring
  unfold mergeHigh mergeLow shuffle
  rw [mergeMask_hi hp' he, mergeMask_hi hp' he, hhalf, if_neg (by omega), if_neg (by omega)]
  rw [hadd]
  congr 2 <;> omega

theorem pairStage_spec (op : R → R → R) (VL step r : ℕ) (tmp : ℕ → ℕ → R) : ∀ (n : ℕ),
    (∀ p < n, pairStage op VL step r n tmp (r + p) = fun i =>
      op (mergeHigh VL step (tmp (r + 2 * p)) (tmp (r + 2 * p + 1)) i)
        (mergeLow VL step (tmp (r + 2 * p)) (tmp (r + 2 * p + 1)) i)) ∧
    (∀ x, (x < r ∨ r + n ≤ x) → pairStage op VL step r n tmp x = tmp x) := by
  intro n
  induction n with
  | zero =>
    refine ⟨fun p hp => by omega, fun x _ => ?_⟩
    simp [pairStage]
  | succ n ih =>
    have hstep : pairStage op VL step r (n + 1) tmp =
        Function.update (pairStage op VL step r n tmp) (r + n) (fun i =>
          op (mergeHigh VL step (pairStage op VL step r n tmp (r + 2 * n))
              (pairStage op VL step r n tmp (r + 2 * n + 1)) i)
            (mergeLow VL step (pairStage op VL step r n tmp (r + 2 * n))
              (pairStage op VL step r n tmp (r + 2 * n + 1)) i)) := by
      unfold pairStage
      rw [List.range_succ, List.foldl_append]
      rfl
    rw [hstep]
    constructor
    · intro p hp
      by_cases hpn : p = n
      · subst hpn
        rw [Function.update_self, ih.2 _ (Or.inr (by omega)), ih.2 _ (Or.inr (by omega))]
      · rw [Function.update_of_ne (by omega)]
        exact ih.1 p (by omega)
    · intro x hx
      rw [Function.update_of_ne (by omega)]
      exact ih.2 x (by omega)

theorem prod_range_double {M : Type*} [CommMonoid M] (f : ℕ → M) (n : ℕ) :
    ∏ u ∈ Finset.range (n * 2), f u =
      (∏ u ∈ Finset.range n, f (2 * u)) * ∏ u ∈ Finset.range n, f (2 * u + 1) := by
  induction n with
  | zero => simp
  | succ n ih =>
    rw [Nat.succ_mul, Finset.prod_range_succ, Finset.prod_range_succ, ih,
      Finset.prod_range_succ, Finset.prod_range_succ]
    rw [show n * 2 = 2 * n by ring]
    simp only [mul_assoc, mul_left_comm, mul_comm]

/-- State of the group starting at vector `r` when `s` lanes are already folded:
`W` vectors remain, lane `P * s + q` of vector `p` holds the product of the lanes
of input vector `r + p * s + q` that are `P` modulo `W`. -/
def Folded {M : Type*} [CommMonoid M] (φ : R → M) (inp : ℕ → ℕ → R) (r s W : ℕ)
    (tmp : ℕ → ℕ → R) : Prop :=
  ∀ p < W, ∀ P < W, ∀ q < s,
    φ (tmp (r + p) (P * s + q)) =
      ∏ u ∈ Finset.range s, φ (inp (r + (p * s + q)) (P + u * W))

theorem folded_step {M : Type*} [CommMonoid M] (φ : R → M) (op : R → R → R)
    (hφ : ∀ a b, φ (op a b) = φ a * φ b) (inp : ℕ → ℕ → R) {r s W' : ℕ} {tmp : ℕ → ℕ → R}
    (h : Folded φ inp r s (W' * 2) tmp) :
    Folded φ inp r (s * 2) W' (pairStage op (2 * s * W') s r W' tmp) := by
  intro p hp P hP q hq
  rw [(pairStage_spec op _ s r tmp W').1 p hp]
  have hfin : ∀ x : ℕ, (∏ u ∈ Finset.range s, φ (inp x (P + u * (W' * 2)))) *
      (∏ u ∈ Finset.range s, φ (inp x (P + W' + u * (W' * 2)))) =
      ∏ u ∈ Finset.range (s * 2), φ (inp x (P + u * W')) := by
    intro x
    rw [prod_range_double]
    congr 1
    · refine Finset.prod_congr rfl fun u _ => ?_
      congr 2; ring
    · refine Finset.prod_congr rfl fun u _ => ?_
      congr 2; ring
  have h2 : r + 2 * p + 1 = r + (2 * p + 1) := by ring
  by_cases hqs : q < s
  · rw [show P * (s * 2) + q = P * (2 * s) + q by ring]
    simp only []
    rw [red_lo op _ _ hP hqs, hφ, h (2 * p) (by omega) P (by omega) q hqs,
      h (2 * p) (by omega) (P + W') (by omega) q hqs, hfin]
    rw [show 2 * p * s + q = p * (s * 2) + q by ring]
  · obtain ⟨e, rfl⟩ : ∃ e, q = s + e := ⟨q - s, by omega⟩
    have he : e < s := by omega
    rw [show P * (s * 2) + (s + e) = P * (2 * s) + (s + e) by ring]
    simp only []
    rw [red_hi op _ _ hP he, hφ, h2, h (2 * p + 1) (by omega) P (by omega) e he,
      h (2 * p + 1) (by omega) (P + W') (by omega) e he, hfin]
    rw [show (2 * p + 1) * s + e = p * (s * 2) + (s + e) by ring]

theorem stages_spec {M : Type*} [CommMonoid M] (φ : R → M) (op : R → R → R)
    (hφ : ∀ a b, φ (op a b) = φ a * φ b) (inp : ℕ → ℕ → R) (r VL : ℕ) :
    ∀ (k s fuel : ℕ) (tmp : ℕ → ℕ → R), VL = s * 2 ^ k → 0 < s → k ≤ fuel →
      Folded φ inp r s (2 ^ k) tmp →
      Folded φ inp r VL 1 (stages op VL r fuel s (2 ^ k / 2) tmp) ∧
      ∀ x, (x < r ∨ r + VL ≤ x) → stages op VL r fuel s (2 ^ k / 2) tmp x = tmp x := by
  intro k
  induction k with
  | zero =>
    intro s fuel tmp hVL hs _ h
    have : VL = s := by simpa using hVL
    subst this
    have hst : stages op VL r fuel VL (2 ^ 0 / 2) tmp = tmp := by
      cases fuel with
      | zero => rfl
      | succ f => rw [stages, if_neg (by omega)]
    rw [hst]
    exact ⟨by simpa using h, fun _ _ => rfl⟩
  | succ k ih =>
    intro s fuel tmp hVL hs hf h
    obtain ⟨f, rfl⟩ : ∃ f, fuel = f + 1 := ⟨fuel - 1, by omega⟩
    have hpow : 2 ^ (k + 1) / 2 = 2 ^ k := by rw [pow_succ]; omega
    have hpos : 0 < 2 ^ k := Nat.pos_of_ne_zero (by simp)
    have hlt : s < VL := by
      rw [hVL, pow_succ]; nlinarith
    rw [stages, if_pos hlt, hpow]
    have hVL' : VL = 2 * s * 2 ^ k := by rw [hVL, pow_succ]; ring
    have h' := folded_step φ op hφ inp (W' := 2 ^ k) (by rwa [pow_succ] at h)
    rw [← hVL'] at h'
    obtain ⟨h1, h2⟩ := ih (s * 2) f _ (by rw [hVL']; ring) (by omega) (by omega) h'
    refine ⟨h1, fun x hx => ?_⟩
    rw [h2 x hx]
    refine (pairStage_spec op VL s r tmp (2 ^ k)).2 x ?_
    have : 2 ^ k ≤ VL := by rw [hVL']; nlinarith
    omega

theorem multiReductionLoop_spec {M : Type*} [CommMonoid M] (φ : R → M) (op : R → R → R)
    (hφ : ∀ a b, φ (op a b) = φ a * φ b) (inp : ℕ → ℕ → R) (m : ℕ) :
    ∀ (groups r : ℕ) (tmp : ℕ → ℕ → R), (∀ x, r ≤ x → tmp x = inp x) →
      (multiReductionLoop op (2 ^ m) groups tmp r).length = groups ∧
      ∀ g q, g < groups → q < 2 ^ m → ∃ v,
        (multiReductionLoop op (2 ^ m) groups tmp r)[g]? = some v ∧
        φ (v q) = ∏ u ∈ Finset.range (2 ^ m), φ (inp (r + (g * 2 ^ m + q)) u) := by
  intro groups
  induction groups with
  | zero => intro r tmp _; exact ⟨rfl, fun g q hg => by omega⟩
  | succ n ih =>
    intro r tmp htmp
    have hinit : Folded φ inp r 1 (2 ^ m) tmp := by
      intro p hp P hP q hq
      have : q = 0 := by omega
      subst this
      rw [htmp _ (by omega)]
      simp
    have hm : m ≤ 2 ^ m := le_of_lt Nat.lt_two_pow_self
    obtain ⟨h1, h2⟩ := stages_spec φ op hφ inp r (2 ^ m) m 1 (2 ^ m) tmp (by ring) (by omega)
      hm hinit
    obtain ⟨hl, ih'⟩ := ih (r + 2 ^ m) (stages op (2 ^ m) r (2 ^ m) 1 (2 ^ m / 2) tmp)
      (fun x hx => by rw [h2 x (Or.inr hx), htmp x (by omega)])
    rw [multiReductionLoop]
    refine ⟨by simp [hl], fun g q hg hq => ?_⟩
    cases g with
    | zero =>
      refine ⟨_, rfl, ?_⟩
      have := h1 0 (by omega) 0 (by omega) q hq
      simpa using this
    | succ g =>
      obtain ⟨v, hv, hvq⟩ := ih' g q (by omega) hq
      refine ⟨v, by simpa using hv, ?_⟩
      rw [hvq, show r + 2 ^ m + (g * 2 ^ m + q) = r + ((g + 1) * 2 ^ m + q) by ring]

theorem multiReduction_spec {M : Type*} [CommMonoid M] (φ : R → M) (op : R → R → R)
    (hφ : ∀ a b, φ (op a b) = φ a * φ b) (inp : ℕ → ℕ → R) (m groups : ℕ) :
    (multiReduction op (2 ^ m) (groups * 2 ^ m) inp).length = groups ∧
      ∀ g q, g < groups → q < 2 ^ m → ∃ v,
        (multiReduction op (2 ^ m) (groups * 2 ^ m) inp)[g]? = some v ∧
        φ (v q) = ∏ u ∈ Finset.range (2 ^ m), φ (inp (g * 2 ^ m + q) u) := by
  have hpos : 0 < 2 ^ m := Nat.pos_of_ne_zero (by simp)
  unfold multiReduction
  rw [Nat.mul_div_cancel _ hpos]
  have := multiReductionLoop_spec φ op hφ inp m groups 0 inp (fun _ _ => rfl)
  simpa using this

end Verif.Krnl
