import Verif.Lower.ReduceLemmas
import Verif.Lower.ReduceSpec
import Verif.Krnl.SimdLemmas
import Mathlib.Algebra.BigOperators.Fin
import Mathlib.Algebra.BigOperators.Ring.Finset

namespace Verif.Lower

open Verif.Krnl (Buf IE forLoop starts isTileFull multiReduction simdHi)

section
variable {R : Type*}

/-! ### The lanes -/

theorem redStep_list (r : Reds R) (VL : ℕ) : ∀ (L : List ℤ) (tmp : ℕ → ℕ → R),
    (∀ i ∈ L, ∀ v < r.n, 0 ≤ r.off v + i ∧ r.off v + i + VL ≤ (r.inp v).size) →
    L.foldlM (fun tmp i => redStep r VL i tmp) tmp = some fun v l =>
      if v < r.n ∧ l < VL then
        L.foldl (fun t i => r.f v t ((r.inp v).data (r.off v + i + l))) (tmp v l)
      else tmp v l
  | [], tmp, _ => by simp
  | i :: L, tmp, h => by
    rw [List.foldlM_cons]
    unfold redStep
    rw [if_pos (h i (by simp))]
    simp only [Option.bind_eq_bind, Option.bind_some]
    have := redStep_list r VL L (fun v l =>
      if v < r.n ∧ l < VL then r.f v (tmp v l) ((r.inp v).data (r.off v + i + l)) else tmp v l)
      (fun i hi => h i (by simp [hi]))
    unfold redStep at this
    rw [this]
    congr 1
    funext v l
    by_cases hc : v < r.n ∧ l < VL
    · simp [hc]
    · simp [hc]

theorem starts_eq_range {lo hi : ℤ} {s : ℕ} (hs : 0 < s) {q : ℕ} (h1 : hi ≤ lo + q * s)
    (h2 : lo + q * s < hi + s) : starts lo hi s = (List.range q).map fun (k : ℕ) => lo + (k : ℤ) * s := by
  unfold starts
  congr 2
  rcases Nat.eq_zero_or_pos q with rfl | hq
  · have : (hi - lo).toNat = 0 := by omega
    rw [this]
    exact Nat.div_eq_of_lt (by omega)
  · obtain ⟨p, rfl⟩ := Nat.exists_eq_succ_of_ne_zero hq.ne'
    push_cast at h1 h2
    rw [add_mul, one_mul] at h1 h2
    have hp : (0 : ℤ) ≤ p * s := by positivity
    refine Nat.div_eq_of_lt_le ?_ ?_
    · zify
      rw [Int.toNat_of_nonneg (by omega), Nat.cast_sub (by omega)]
      push_cast
      rw [add_mul]; omega
    · zify
      rw [Int.toNat_of_nonneg (by omega), Nat.cast_sub (by omega)]
      push_cast
      rw [add_mul, add_mul]; omega

/-- The accumulators after a SIMD reduction: `q` full vectors, then `rem` scalars into
lane 0. -/
theorem simdReduce_run (r : Reds R) (lb : ℤ) (trip : IE) (VL : ℕ) (fullySimd : Bool) (hVL : 0 < VL)
    (ht : 0 ≤ trip.val)
    (hb : ∀ v < r.n, 0 ≤ r.off v + lb ∧
      r.off v + simdHi lb trip.val VL fullySimd ≤ (r.inp v).size) :
    ∃ (q rem : ℕ) (tmp : ℕ → ℕ → R),
      simdHi lb trip.val VL fullySimd = lb + q * VL + rem ∧
      simdReduce r lb trip VL fullySimd = some tmp ∧
      ∀ v < r.n, ∀ l < VL, tmp v l =
        if l = 0 then
          (List.range rem).foldl (fun t (k : ℕ) => r.f v t ((r.inp v).data (r.off v + lb + (q * VL + k : ℕ))))
            ((List.range q).foldl (fun t (k : ℕ) => r.f v t ((r.inp v).data (r.off v + lb + (k * VL : ℕ))))
              (r.init v))
        else (List.range q).foldl
          (fun t (k : ℕ) => r.f v t ((r.inp v).data (r.off v + lb + (k * VL + l : ℕ)))) (r.init v) := by
  -- a vector loop followed by a scalar loop
  have key : ∀ (q rem : ℕ) (ub1 lb2 ub2 : ℤ), lb + q * VL + rem = simdHi lb trip.val VL fullySimd →
      ub1 ≤ lb + q * VL → lb + q * VL < ub1 + VL → lb2 = lb + q * VL → ub2 = lb2 + rem →
      ∃ tmp, ((forLoop lb ub1 VL (redStep r VL) fun v _ => r.init v).bind fun tmp =>
          forLoop lb2 ub2 1 (redStep r 1) tmp) = some tmp ∧
        ∀ v < r.n, ∀ l < VL, tmp v l =
        if l = 0 then
          (List.range rem).foldl (fun t (k : ℕ) => r.f v t ((r.inp v).data (r.off v + lb + (q * VL + k : ℕ))))
            ((List.range q).foldl (fun t (k : ℕ) => r.f v t ((r.inp v).data (r.off v + lb + (k * VL : ℕ))))
              (r.init v))
        else (List.range q).foldl
          (fun t (k : ℕ) => r.f v t ((r.inp v).data (r.off v + lb + (k * VL + l : ℕ)))) (r.init v) := by
    intro q rem ub1 lb2 ub2 hhi h1 h2 h3 h4
    subst h3 h4
    have hq0 : (0 : ℤ) ≤ q * VL := by positivity
    unfold forLoop
    rw [starts_eq_range hVL h1 h2]
    rw [starts_eq_range (s := 1) (q := rem) (by omega) (by push_cast; omega) (by push_cast; omega)]
    rw [redStep_list r VL]
    rotate_left
    · intro i hi v hv
      simp only [List.mem_map, List.mem_range] at hi
      obtain ⟨k, hk, rfl⟩ := hi
      have := hb v hv
      have hk1 : ((k : ℤ) + 1) * VL ≤ q * VL :=
        mul_le_mul_of_nonneg_right (by omega) (by omega)
      have hk0 : (0 : ℤ) ≤ k * VL := by positivity
      rw [add_mul, one_mul] at hk1
      omega
    rw [Option.bind_some, redStep_list r 1]
    rotate_left
    · intro i hi v hv
      simp only [List.mem_map, List.mem_range] at hi
      obtain ⟨k, hk, rfl⟩ := hi
      have := hb v hv
      push_cast
      omega
    refine ⟨_, rfl, ?_⟩
    · intro v hv l hl
      simp only [hv, hl, true_and, and_true, if_true, List.foldl_map, Nat.lt_one_iff]
      by_cases hl0 : l = 0
      · subst hl0
        simp only [if_true]
        congr 1
        · funext t k
          congr 2
          push_cast
          ring
        · congr 1
          funext t k
          congr 2
          push_cast
          ring
      · simp only [hl0, if_false]
        congr 1
        funext t k
        congr 2
        push_cast
        ring
  unfold simdReduce
  simp only
  by_cases h1 : VL > 1
  · rw [if_pos h1]
    have hv : (0 : ℤ) < VL := by omega
    cases fullySimd
    · have hhi : simdHi lb trip.val VL false = lb + trip.val := by simp [simdHi]
      have hdm := Int.mul_ediv_add_emod trip.val VL
      have hm0 := Int.emod_nonneg trip.val (by omega : (VL : ℤ) ≠ 0)
      have hm1 := Int.emod_lt_of_pos trip.val hv
      obtain ⟨q, hq⟩ := Int.eq_ofNat_of_zero_le (Int.ediv_nonneg ht (by omega : (0 : ℤ) ≤ VL))
      obtain ⟨m, hm⟩ := Int.eq_ofNat_of_zero_le hm0
      rw [hq, mul_comm] at hdm
      obtain ⟨tmp, e, hl⟩ := key q m (lb + trip.val - (VL - 1)) (lb + (trip.val - trip.val % VL))
        (lb + trip.val) (by omega) (by omega) (by omega) (by omega) (by omega)
      refine ⟨q, m, tmp, by omega, ?_, hl⟩
      simp only [Bool.false_eq_true, if_false]
      rw [← e]
      congr 1
      funext tmp
      split
      · rename_i hl
        unfold forLoop
        rw [Verif.Krnl.starts_nil (by omega) (by omega)]
        rfl
      · rfl
    · have hdm := Int.mul_ediv_add_emod (trip.val + (VL - 1)) VL
      have hm0 := Int.emod_nonneg (trip.val + (VL - 1)) (by omega : (VL : ℤ) ≠ 0)
      have hm1 := Int.emod_lt_of_pos (trip.val + (VL - 1)) hv
      obtain ⟨q, hq⟩ := Int.eq_ofNat_of_zero_le
        (Int.ediv_nonneg (by omega : 0 ≤ trip.val + (VL - 1)) (by omega : (0 : ℤ) ≤ VL))
      have hhi : simdHi lb trip.val VL true = lb + q * VL := by
        simp [simdHi, h1, hq]
      rw [hq, mul_comm] at hdm
      obtain ⟨tmp, e, hl⟩ := key q 0 (lb + trip.val) (lb + q * VL) (lb + q * VL) (by omega)
        (by omega) (by omega) rfl (by omega)
      refine ⟨q, 0, tmp, by omega, ?_, hl⟩
      simp only [if_true]
      rw [← e]
      congr 1
      funext tmp
      unfold forLoop
      rw [Verif.Krnl.starts_nil (by omega) (by omega)]
      rfl
  · rw [if_neg h1]
    have h1' : VL = 1 := by omega
    subst h1'
    have hhi : simdHi lb trip.val 1 fullySimd = lb + trip.val := by simp [simdHi]
    obtain ⟨n, hn⟩ := Int.eq_ofNat_of_zero_le ht
    obtain ⟨tmp, e, hl⟩ := key 0 n lb lb (lb + trip.val) (by rw [hhi]; push_cast; omega) (by push_cast; omega)
      (by push_cast; omega) (by push_cast; omega) (by omega)
    refine ⟨0, n, tmp, by rw [hhi]; push_cast; omega, ?_, hl⟩
    rw [← e]
    unfold forLoop
    rw [Verif.Krnl.starts_nil (lo := lb) (hi := lb) (by omega) (le_refl _)]
    rfl

end

/-! ### Algebra -/

/-- The structure of Mathlib. -/
@[reducible] def IsCommMon.toCommMonoid {R : Type*} {op : R → R → R} {e : R} (h : IsCommMon op e) : CommMonoid R where
  mul := op
  one := e
  mul_assoc := h.assoc
  mul_comm := h.comm
  one_mul := h.id_left
  mul_one := fun a => (h.comm a e).trans (h.id_left a)

section
variable {M : Type*} [CommMonoid M]

theorem foldl_mul {α : Type*} (g : α → M) : ∀ (L : List α) (t : M),
    L.foldl (fun t i => t * g i) t = t * (L.map g).prod
  | [], t => by simp
  | i :: L, t => by
    rw [List.foldl_cons, foldl_mul g L, List.map_cons, List.prod_cons, mul_assoc]

theorem vecReduction_prod {VL : ℕ} (hV : 0 < VL) (w : ℕ → M) :
    vecReduction (· * ·) VL w = ∏ l ∈ Finset.range VL, w l := by
  obtain ⟨n, rfl⟩ := Nat.exists_eq_succ_of_ne_zero hV.ne'
  unfold vecReduction
  rw [foldl_mul (fun l => w (l + 1)), Finset.prod_range_succ', mul_comm]
  congr 1

theorem range_map_prod (n : ℕ) (g : ℕ → M) : ((List.range n).map g).prod = ∏ k ∈ Finset.range n, g k := by
  induction n with
  | zero => simp
  | succ n ih => rw [List.range_succ, List.map_append, List.prod_append, ih, Finset.prod_range_succ]; simp

theorem blocks_prod (g : ℕ → M) (VL : ℕ) : ∀ q : ℕ,
    ∏ k ∈ Finset.range q, ∏ l ∈ Finset.range VL, g (k * VL + l) = ∏ j ∈ Finset.range (q * VL), g j
  | 0 => by simp
  | q + 1 => by
    rw [Finset.prod_range_succ, blocks_prod g VL q, Nat.succ_mul, Finset.prod_range_add]

/-- The product of the lanes is the product of all elements. -/
theorem lanes_prod (g : ℕ → M) {VL : ℕ} (hV : 0 < VL) (q rem : ℕ) (w : ℕ → M)
    (hw : ∀ l < VL, w l = if l = 0 then
        (List.range rem).foldl (fun t k => t * g (q * VL + k))
          ((List.range q).foldl (fun t k => t * g (k * VL)) 1)
      else (List.range q).foldl (fun t k => t * g (k * VL + l)) 1) :
    ∏ l ∈ Finset.range VL, w l = ∏ j ∈ Finset.range (q * VL + rem), g j := by
  have e : ∀ l ∈ Finset.range VL, w l =
      (if l = 0 then ∏ k ∈ Finset.range rem, g (q * VL + k) else 1) *
        ∏ k ∈ Finset.range q, g (k * VL + l) := by
    intro l hl
    rw [hw l (Finset.mem_range.1 hl)]
    by_cases h0 : l = 0
    · subst h0
      simp only [if_true, foldl_mul (fun k => g (q * VL + k)), foldl_mul (fun k => g (k * VL)), one_mul,
        range_map_prod, Nat.add_zero]
      rw [mul_comm]
    · simp only [h0, if_false, foldl_mul (fun k => g (k * VL + l)), one_mul, range_map_prod]
  rw [Finset.prod_congr rfl e, Finset.prod_mul_distrib, Finset.prod_comm, blocks_prod,
    Finset.prod_ite_eq' (Finset.range VL) 0, if_pos (Finset.mem_range.2 hV), Finset.prod_range_add, mul_comm]

end

section
variable {R : Type*}

/-- A SIMD reduction combines all elements of the row. -/
theorem simdReduce_spec (r : Reds R) (lb : ℤ) (trip : IE) (VL : ℕ) (fullySimd : Bool) (hVL : 0 < VL)
    (ht : 0 ≤ trip.val)
    (hb : ∀ v < r.n, 0 ≤ r.off v + lb ∧
      r.off v + simdHi lb trip.val VL fullySimd ≤ (r.inp v).size)
    (len : ℕ) (hlen : simdHi lb trip.val VL fullySimd = lb + len) :
    ∃ tmp, simdReduce r lb trip VL fullySimd = some tmp ∧
      ∀ v < r.n, ∀ (op : R → R → R) (e : R) (g : R → R), IsCommMon op e →
        (∀ t x, r.f v t x = op t (g x)) → r.init v = e →
        vecReduction op VL (tmp v) =
          ((List.range len).map fun (k : ℕ) => g ((r.inp v).data (r.off v + lb + k))).foldl op e := by
  obtain ⟨q, rem, tmp, hhi, hrun, hl⟩ := simdReduce_run r lb trip VL fullySimd hVL ht hb
  refine ⟨tmp, hrun, ?_⟩
  intro v hv op e g hop hf hi
  have hn : len = q * VL + rem := by
    have : (len : ℤ) = ((q * VL + rem : ℕ) : ℤ) := by push_cast; omega
    exact_mod_cast this
  subst hn
  letI : CommMonoid R := hop.toCommMonoid
  have h1 := lanes_prod (fun k : ℕ => g ((r.inp v).data (r.off v + lb + k))) hVL q rem (tmp v) (by
    intro l hl'
    rw [hl v hv l hl', hi]
    simp only [hf]
    rfl)
  have h2 := vecReduction_prod hVL (tmp v)
  have h3 := foldl_mul (fun x : R => x)
    ((List.range (q * VL + rem)).map fun (k : ℕ) => g ((r.inp v).data (r.off v + lb + k))) 1
  rw [List.map_id', one_mul, range_map_prod] at h3
  exact (h2.trans h1).trans h3.symm

/-- The shuffled reduction of `VL` vectors gives the horizontal reductions. -/
theorem multiReduction_vec {op : R → R → R} {e : R} (hop : IsCommMon op e) (m : ℕ) (tmp : ℕ → ℕ → R) :
    ∃ v, multiReduction op (2 ^ m) (2 ^ m) tmp = [v] ∧
      ∀ q < 2 ^ m, v q = vecReduction op (2 ^ m) (tmp q) := by
  letI : CommMonoid R := hop.toCommMonoid
  obtain ⟨h1, h2⟩ := Verif.Krnl.multiReduction_spec (R := R) (M := R) id op (fun _ _ => rfl) tmp m 1
  rw [one_mul] at h1 h2
  obtain ⟨v, hv⟩ := List.length_eq_one_iff.1 h1
  refine ⟨v, hv, fun q hq => ?_⟩
  obtain ⟨w, hw, hwq⟩ := h2 0 q (by omega) hq
  rw [hv] at hw
  simp only [List.getElem?_cons_zero, Option.some.injEq] at hw
  subst hw
  simp only [id, zero_mul, zero_add] at hwq
  rw [hwq]
  exact (vecReduction_prod (by positivity) (tmp q)).symm

end

/-! ### Row-major positions -/

theorem lin_append : ∀ (a b : List ℤ) (x y : Idx), x.length = a.length →
    lin (a ++ b) (x ++ y) = lin a x * numel b + lin b y
  | [], b, [], y, _ => by simp [lin]
  | [], _, _ :: _, _, h => by simp at h
  | _ :: _, _, [], _, h => by simp at h
  | d :: ds, b, x :: xs, y, h => by
    rw [List.cons_append, List.cons_append, lin, lin, lin_append ds b xs y (by simpa using h),
      numel_append]
    ring

theorem lin_bounds : ∀ {dims : List ℤ} {i : Idx}, InShape i dims → 0 ≤ lin dims i ∧ lin dims i < numel dims
  | [], _, h => by cases h; simp [lin, numel]
  | d :: ds, _, h => by
    cases h with
    | cons h1 h2 =>
      rename_i x xs
      have ih := lin_bounds h2
      rw [lin, numel_cons]
      refine ⟨by have := mul_nonneg h1.1 (by omega : 0 ≤ numel ds); omega, ?_⟩
      have : (x + 1) * numel ds ≤ d * numel ds := mul_le_mul_of_nonneg_right (by omega) (by omega)
      rw [add_mul, one_mul] at this
      omega

theorem unlin_lin : ∀ {dims : List ℤ} {i : Idx}, InShape i dims → unlin dims (lin dims i) = i
  | [], _, h => by cases h; rfl
  | d :: ds, _, h => by
    cases h with
    | cons h1 h2 =>
      rename_i x xs
      have hb := lin_bounds h2
      rw [lin, unlin]
      have e1 : (x * numel ds + lin ds xs) / numel ds = x := by
        rw [add_comm, Int.add_mul_ediv_right _ _ (by omega), Int.ediv_eq_zero_of_lt hb.1 hb.2]; simp
      have e2 : (x * numel ds + lin ds xs) % numel ds = lin ds xs := by
        rw [add_comm, Int.add_mul_emod_self_right, Int.emod_eq_of_lt hb.1 hb.2]
      rw [e1, e2, unlin_lin h2]

theorem upto_mul (a : ℕ) (b : ℤ) (hb : 0 ≤ b) :
    upto (a * b) = (upto a).flatMap fun x => (upto b).map fun y => x * b + y := by
  obtain ⟨c, rfl⟩ := Int.eq_ofNat_of_zero_le hb
  induction a with
  | zero => simp [upto]
  | succ a ih =>
    have e : upto (((a + 1 : ℕ) : ℤ)) = upto (a : ℤ) ++ [(a : ℤ)] := by
      have := upto_succ a; push_cast at this ⊢; exact this
    rw [e, List.flatMap_append, ← ih]
    simp only [List.flatMap_cons, List.flatMap_nil, List.append_nil]
    unfold upto
    have e2 : (((a + 1 : ℕ) : ℤ) * (c : ℤ)).toNat = a * c + c := by
      rw [← Nat.cast_mul, Int.toNat_natCast]; ring
    have e3 : ((a : ℤ) * (c : ℤ)).toNat = a * c := by rw [← Nat.cast_mul, Int.toNat_natCast]
    rw [e2, e3, Int.toNat_natCast, List.range_add, List.map_append, List.map_map, List.map_map]
    congr 1

/-- The nest visits the positions in row-major order. -/
theorem idxs_lin : ∀ {dims : List ℤ}, (∀ d ∈ dims, 0 ≤ d) →
    (idxs dims).map (lin dims) = upto (numel dims)
  | [], _ => by simp [idxs, lin, numel, upto]
  | d :: ds, h => by
    have hd := h d (by simp)
    have ih := idxs_lin (dims := ds) fun x hx => h x (by simp [hx])
    obtain ⟨a, rfl⟩ := Int.eq_ofNat_of_zero_le hd
    rw [numel_cons, upto_mul a _ (numel_nonneg fun x hx => h x (by simp [hx])), idxs, List.map_flatMap]
    congr 1
    funext x
    rw [← ih, List.map_map, List.map_map]
    rfl

end Verif.Lower
