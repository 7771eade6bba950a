import Verif.Runtime.SortModel
import Mathlib.Logic.Equiv.Basic
import Mathlib.Data.List.Perm.Basic
import Mathlib.Data.List.Nodup
import Mathlib.Data.List.Range
import Mathlib.Algebra.Order.Group.Int
import Mathlib.Data.Int.Order.Basic
import Mathlib.Tactic.Linarith
import Mathlib.Tactic.Ring
import Mathlib.Tactic.Order

namespace Verif.Runtime.Sort

/-- `m'` is `m` with the positions in `[lo, hi]` permuted. -/
def PermOn (lo hi : Int) (m m' : Mem) : Prop :=
  ∃ σ : Equiv.Perm ℤ, (∀ k, m' k = m (σ k)) ∧ ∀ k, (k < lo ∨ hi < k) → σ k = k

theorem PermOn.refl (lo hi : Int) (m : Mem) : PermOn lo hi m m :=
  ⟨Equiv.refl _, fun _ => rfl, fun _ _ => rfl⟩

theorem PermOn.trans {lo hi : Int} {m1 m2 m3 : Mem} (h1 : PermOn lo hi m1 m2)
    (h2 : PermOn lo hi m2 m3) : PermOn lo hi m1 m3 := by
  obtain ⟨s, a, b⟩ := h1
  obtain ⟨t, c, d⟩ := h2
  refine ⟨t.trans s, fun k => by rw [c, a]; rfl, fun k hk => ?_⟩
  rw [Equiv.trans_apply, d k hk, b k hk]

theorem PermOn.mono {lo hi lo' hi' : Int} {m m' : Mem} (h : PermOn lo hi m m')
    (h1 : lo' ≤ lo) (h2 : hi ≤ hi') : PermOn lo' hi' m m' := by
  obtain ⟨s, a, b⟩ := h
  exact ⟨s, a, fun k hk => b k (by omega)⟩

theorem PermOn.outside {lo hi : Int} {m m' : Mem} (h : PermOn lo hi m m') {k : Int}
    (hk : k < lo ∨ hi < k) : m' k = m k := by
  obtain ⟨s, a, b⟩ := h
  rw [a, b k hk]

theorem perm_inside {lo hi : Int} {s : Equiv.Perm ℤ} (b : ∀ k, (k < lo ∨ hi < k) → s k = k)
    {k : Int} (hk : lo ≤ k ∧ k ≤ hi) : lo ≤ s k ∧ s k ≤ hi := by
  by_contra hn
  have h1 : s k < lo ∨ hi < s k := by omega
  have h2 := b (s k) h1
  have h3 : s k = k := s.injective h2
  omega

theorem PermOn.inside {lo hi : Int} {m m' : Mem} (h : PermOn lo hi m m') {k : Int}
    (hk : lo ≤ k ∧ k ≤ hi) : ∃ k', lo ≤ k' ∧ k' ≤ hi ∧ m' k = m k' := by
  obtain ⟨s, a, b⟩ := h
  have := perm_inside b hk
  exact ⟨s k, this.1, this.2, a k⟩

theorem swap_spec {n : Int} {m : Mem} {i j lo hi : Int} (hi' : 0 ≤ i ∧ i < n)
    (hj' : 0 ≤ j ∧ j < n) (hil : lo ≤ i ∧ i ≤ hi) (hjl : lo ≤ j ∧ j ≤ hi) :
    ∃ m', swap n m i j = some m' ∧ PermOn lo hi m m' ∧
      (∀ k, m' k = if k = i then m j else if k = j then m i else m k) := by
  refine ⟨_, by rw [swap, if_pos ⟨hi'.1, hi'.2, hj'.1, hj'.2⟩], ?_, fun k => rfl⟩
  refine ⟨Equiv.swap i j, fun k => ?_, fun k hk => ?_⟩
  · rw [Equiv.swap_apply_def]
    by_cases h1 : k = i
    · simp [h1]
    · by_cases h2 : k = j
      · subst h2; simp [h1]
      · simp [h1, h2]
  · apply Equiv.swap_apply_of_ne_of_ne <;> omega

theorem partLoop_spec {n : Int} {c : Nat → Nat → Int} {b e : Int} (hb : 0 ≤ b) (he : e < n)
    (t : Nat) : ∀ (j i : Int) (m : Mem), b ≤ i → i ≤ j → j + t = e →
    (∀ k, b ≤ k → k < i → c (m k) (m e) ≤ 0) → (∀ k, i ≤ k → k < j → ¬ c (m k) (m e) ≤ 0) →
    ∃ p m', partLoop n c e t j i m = some (p, m') ∧ b ≤ p ∧ p ≤ e ∧ PermOn b (e - 1) m m' ∧
      (∀ k, b ≤ k → k < p → c (m' k) (m' e) ≤ 0) ∧
      (∀ k, p ≤ k → k < e → ¬ c (m' k) (m' e) ≤ 0) := by
  induction t with
  | zero =>
    intro j i m h1 h2 h3 h4 h5
    exact ⟨i, m, rfl, h1, by simp at h3; omega, PermOn.refl _ _ _, h4,
      fun k hk hk' => h5 k hk (by simp at h3; omega)⟩
  | succ t ih =>
    intro j i m h1 h2 h3 h4 h5
    have hj : j < e := by push_cast at h3; omega
    have r1 : rd n m j = some (m j) := by rw [rd, if_pos (by omega)]
    have r2 : rd n m e = some (m e) := by rw [rd, if_pos (by omega)]
    rw [partLoop, r1, r2]
    simp only [Option.bind_some]
    split
    · rename_i hc
      obtain ⟨m1, s1, s2, s3⟩ := swap_spec (n := n) (m := m) (i := i) (j := j) (lo := b)
        (hi := e - 1) (by omega) (by omega) (by omega) (by omega)
      rw [s1]
      have hme : m1 e = m e := by
        rw [s3, if_neg (by omega), if_neg (by omega)]
      obtain ⟨p, m', q1, q2, q3, q4, q5, q6⟩ := ih (j + 1) (i + 1) m1 (by omega) (by omega)
        (by push_cast at h3; omega)
        (by
          intro k hk hk'
          rw [hme, s3]
          by_cases hki : k = i
          · rw [if_pos hki]; exact hc
          · rw [if_neg hki, if_neg (by omega)]; exact h4 k hk (by omega))
        (by
          intro k hk hk'
          rw [hme, s3, if_neg (by omega)]
          by_cases hkj : k = j
          · rw [if_pos hkj]; exact h5 i (le_refl i) (by omega)
          · rw [if_neg hkj]; exact h5 k (by omega) (by omega))
      exact ⟨p, m', q1, q2, q3, s2.trans q4, q5, q6⟩
    · rename_i hc
      exact ih (j + 1) i m h1 (by omega) (by push_cast at h3; omega) h4 (by
        intro k hk hk'
        by_cases hkj : k = j
        · rw [hkj]; exact hc
        · exact h5 k hk (by omega))

theorem partition_spec {n : Int} {c : Nat → Nat → Int} {b e : Int} (r : Nat) (m : Mem)
    (hb : 0 ≤ b) (hbe : b < e) (he : e < n) :
    ∃ p m', partition n c r b e m = some (p, m') ∧ b ≤ p ∧ p ≤ e ∧ PermOn b e m m' ∧
      (∀ k, b ≤ k → k < p → c (m' k) (m' p) ≤ 0) ∧
      (∀ k, p < k → k ≤ e → ¬ c (m' k) (m' p) ≤ 0) := by
  have hr1 := Int.emod_nonneg (r : Int) (show e - b + 1 ≠ 0 by omega)
  have hr2 := Int.emod_lt_of_pos (r : Int) (show 0 < e - b + 1 by omega)
  obtain ⟨m1, a1, a2, a3⟩ := swap_spec (n := n) (m := m) (i := b + (r : Int) % (e - b + 1))
    (j := e) (lo := b) (hi := e) (by omega) (by omega) (by omega) (by omega)
  obtain ⟨p, m2, b1, b2, b3, b4, b5, b6⟩ := partLoop_spec (n := n) (c := c) hb he (e - b).toNat b b
    m1 (le_refl b) (le_refl b) (by omega) (by intro k h h'; omega) (by intro k h h'; omega)
  obtain ⟨m3, d1, d2, d3⟩ := swap_spec (n := n) (m := m2) (i := e) (j := p) (lo := b) (hi := e)
    (by omega) (by omega) (by omega) (by omega)
  refine ⟨p, m3, ?_, b2, b3, a2.trans ((b4.mono (le_refl b) (by omega)).trans d2), ?_, ?_⟩
  · simp only [partition, a1, b1, d1, Option.bind_some]
  · intro k hk hk'
    have e1 : m3 k = m2 k := by rw [d3, if_neg (by omega), if_neg (by omega)]
    have e2 : m3 p = m2 e := by
      rw [d3]
      by_cases h : p = e
      · rw [if_pos h, h]
      · rw [if_neg h, if_pos rfl]
    rw [e1, e2]; exact b5 k hk hk'
  · intro k hk hk'
    have e2 : m3 p = m2 e := by rw [d3, if_neg (by omega), if_pos rfl]
    rw [e2, d3]
    by_cases h : k = e
    · rw [if_pos h]; exact b6 p (le_refl p) (by omega)
    · rw [if_neg h, if_neg (by omega)]; exact b6 k (by omega) (by omega)

/-! ### Stack depth -/

theorem log2u_spec (n : Nat) (h : 0 < n) : 2 ^ log2u n ≤ n ∧ n < 2 ^ (log2u n + 1) := by
  induction n using Nat.strongRecOn with
  | ind n ih =>
    unfold log2u
    split
    · rename_i h1
      have := ih (n / 2) (by omega) (by omega)
      rw [pow_succ, pow_succ]
      rw [pow_succ] at this
      omega
    · simp; omega

/-- Sizes of pending intervals halve from one level of the stack to the next. Levels are
counted from the bottom. -/
def Depth (n : Nat) : List (Int × Int) → Prop
  | [] => True
  | x :: st => (x.2 - x.1 + 2) * 2 ^ st.length ≤ n + 1 ∧ Depth n st

theorem push_ok {n : Nat} {st : List (Int × Int)} {x : Int × Int} (hx : x.1 < x.2)
    (hd : (x.2 - x.1 + 2) * 2 ^ st.length ≤ (n : Int) + 1) :
    push (((log2u (n + 1) : Int) + 2) * 2) st x = some (x :: st) := by
  rw [push, if_pos]
  have h1 : (3 : Int) * 2 ^ st.length ≤ n + 1 := by
    refine le_trans ?_ hd
    exact mul_le_mul_of_nonneg_right (by omega) (by positivity)
  have h2 : (2 : Int) ^ st.length ≤ n + 1 := by
    have : (0 : Int) < 2 ^ st.length := by positivity
    linarith
  have h3 : 2 ^ st.length ≤ n + 1 := by exact_mod_cast h2
  have h4 := (log2u_spec (n + 1) (by omega)).2
  have h5 : 2 ^ st.length < 2 ^ (log2u (n + 1) + 1) := lt_of_le_of_lt h3 h4
  have h6 : st.length < log2u (n + 1) + 1 := (Nat.pow_lt_pow_iff_right (by omega)).1 h5
  omega

/-! ### The main loop -/

/-- Measure that decreases at each iteration. -/
def measure' : List (Int × Int) → Nat
  | [] => 0
  | x :: st => 2 * (x.2 - x.1 + 1).toNat + 1 + measure' st

structure Inv (n : Nat) (c : Nat → Nat → Int) (m0 : Mem) (s : QS) : Prop where
  bounds : ∀ x ∈ s.stack, 0 ≤ x.1 ∧ x.2 < n
  disj : s.stack.Pairwise fun x y => x.2 < y.1 ∨ y.2 < x.1
  sorted : ∀ i j : Int, 0 ≤ i → i < j → j < n →
    c (s.m i) (s.m j) ≤ 0 ∨ ∃ x ∈ s.stack, x.1 ≤ i ∧ j ≤ x.2
  perm : PermOn 0 ((n : Int) - 1) m0 s.m
  depth : Depth n s.stack

theorem PermOn.inj {n : Nat} {m0 m : Mem} (h : PermOn 0 ((n : Int) - 1) m0 m)
    (hinj : ∀ i j : Int, 0 ≤ i → i < n → 0 ≤ j → j < n → m0 i = m0 j → i = j) (i j : Int)
    (hi : 0 ≤ i ∧ i < n) (hj : 0 ≤ j ∧ j < n) (he : m i = m j) : i = j := by
  obtain ⟨s, a, b⟩ := h
  have h1 := perm_inside b (k := i) (by omega)
  have h2 := perm_inside b (k := j) (by omega)
  rw [a, a] at he
  exact s.injective (hinj _ _ h1.1 (by omega) h2.1 (by omega) he)

/-- The order on entries that the comparison function realises. -/
structure StrictTotal (c : Nat → Nat → Int) : Prop where
  trans : ∀ x y z, c x y ≤ 0 → c y z ≤ 0 → c x z ≤ 0
  total : ∀ x y, x ≠ y → ¬ c x y ≤ 0 → c y x ≤ 0

theorem pairwise_of_mem {st : List (Int × Int)} {b e : Int} {x y : Int × Int}
    (hd : ((b, e) :: st).Pairwise fun x y => x.2 < y.1 ∨ y.2 < x.1) (hx : b ≤ x.1 ∧ x.2 ≤ e)
    (hy : y ∈ st) (hxx : x.1 ≤ x.2) : x.2 < y.1 ∨ y.2 < x.1 := by
  have h1 := (List.pairwise_cons.1 hd).1 y hy
  have h1 : e < y.1 ∨ y.2 < b := h1
  omega

/-- Sortedness after partitioning `[b, e]` around `p`. -/
theorem sorted_after {n : Nat} {c : Nat → Nat → Int} (hc : StrictTotal c) {m0 m m' : Mem}
    {st : List (Int × Int)} {b e p : Int}
    (hinj : ∀ i j : Int, 0 ≤ i → i < n → 0 ≤ j → j < n → m0 i = m0 j → i = j)
    (hb : 0 ≤ b) (he : e < n) (hp : b ≤ p ∧ p ≤ e)
    (hdisj : ((b, e) :: st).Pairwise fun x y => x.2 < y.1 ∨ y.2 < x.1)
    (hsorted : ∀ i j : Int, 0 ≤ i → i < j → j < n →
      c (m i) (m j) ≤ 0 ∨ ∃ x ∈ (b, e) :: st, x.1 ≤ i ∧ j ≤ x.2)
    (hperm : PermOn b e m m') (hperm0 : PermOn 0 ((n : Int) - 1) m0 m')
    (hl : ∀ k, b ≤ k → k < p → c (m' k) (m' p) ≤ 0)
    (hr : ∀ k, p < k → k ≤ e → ¬ c (m' k) (m' p) ≤ 0)
    (i j : Int) (hi : 0 ≤ i) (hij : i < j) (hj : j < n) :
    c (m' i) (m' j) ≤ 0 ∨ (∃ x ∈ st, x.1 ≤ i ∧ j ≤ x.2) ∨ (b ≤ i ∧ j ≤ p - 1) ∨
      (p + 1 ≤ i ∧ j ≤ e) := by
  have hne : ∀ k, p < k → k ≤ e → m' k ≠ m' p := by
    intro k h1 h2 h3
    have := hperm0.inj hinj k p (by omega) (by omega) h3
    omega
  have hr' : ∀ k, p < k → k ≤ e → c (m' p) (m' k) ≤ 0 := by
    intro k h1 h2
    exact hc.total _ _ (hne k h1 h2) (hr k h1 h2)
  by_cases hi1 : b ≤ i ∧ i ≤ e <;> by_cases hj1 : b ≤ j ∧ j ≤ e
  · -- both inside
    by_cases hjp : j ≤ p - 1
    · exact Or.inr (Or.inr (Or.inl ⟨hi1.1, hjp⟩))
    by_cases hip : p + 1 ≤ i
    · exact Or.inr (Or.inr (Or.inr ⟨hip, hj1.2⟩))
    left
    by_cases h1 : i = p
    · rw [h1]; exact hr' j (by omega) hj1.2
    by_cases h2 : j = p
    · rw [h2]; exact hl i hi1.1 (by omega)
    exact hc.trans _ _ _ (hl i hi1.1 (by omega)) (hr' j (by omega) hj1.2)
  · -- j to the right
    obtain ⟨k, k1, k2, k3⟩ := hperm.inside hi1
    rw [k3, hperm.outside (k := j) (by omega)]
    rcases hsorted k j (by omega) (by omega) hj with h | ⟨x, hx, hx1, hx2⟩
    · exact Or.inl h
    · rcases List.mem_cons.1 hx with rfl | hx
      · simp only at hx1 hx2; omega
      · have := (List.pairwise_cons.1 hdisj).1 x hx
        simp only at this; omega
  · obtain ⟨k, k1, k2, k3⟩ := hperm.inside hj1
    rw [k3, hperm.outside (k := i) (by omega)]
    rcases hsorted i k hi (by omega) (by omega) with h | ⟨x, hx, hx1, hx2⟩
    · exact Or.inl h
    · rcases List.mem_cons.1 hx with rfl | hx
      · simp only at hx1 hx2; omega
      · have := (List.pairwise_cons.1 hdisj).1 x hx
        simp only at this; omega
  · rw [hperm.outside (k := i) (by omega), hperm.outside (k := j) (by omega)]
    rcases hsorted i j hi hij hj with h | ⟨x, hx, hx1, hx2⟩
    · exact Or.inl h
    · rcases List.mem_cons.1 hx with rfl | hx
      · simp only at hx1 hx2
        by_cases hjp : j ≤ p - 1
        · exact Or.inr (Or.inr (Or.inl ⟨hx1, hjp⟩))
        omega
      · exact Or.inr (Or.inl ⟨x, hx, hx1, hx2⟩)

theorem depth_small {n : Nat} {k : Nat} {s s' : Int} (h : (s + 2) * 2 ^ k ≤ (n : Int) + 1)
    (hs : 2 * (s' + 2) ≤ s + 2) : (s' + 2) * 2 ^ (k + 1) ≤ (n : Int) + 1 := by
  have : (0 : Int) < 2 ^ k := by positivity
  rw [pow_succ]
  nlinarith

theorem depth_mono {n : Nat} {k : Nat} {s s' : Int} (h : (s + 2) * 2 ^ k ≤ (n : Int) + 1)
    (hs : s' ≤ s) : (s' + 2) * 2 ^ k ≤ (n : Int) + 1 := by
  have : (0 : Int) < 2 ^ k := by positivity
  nlinarith

/-- Pushing the larger part first and the smaller on top succeeds and keeps the stack
invariant. -/
theorem push_two {n : Nat} {st : List (Int × Int)} {b e : Int} {x y : Int × Int}
    (hbe : b < e) (hd : Depth n ((b, e) :: st)) (hx : x.2 - x.1 ≤ e - b)
    (hy : 2 * (y.2 - y.1 + 2) ≤ e - b + 2) :
    ∃ st', (pushIf (((log2u (n + 1) : Int) + 2) * 2) x st).bind
        (pushIf (((log2u (n + 1) : Int) + 2) * 2) y) = some st' ∧ Depth n st' ∧
      st' = (if y.1 < y.2 then [y] else []) ++ ((if x.1 < x.2 then [x] else []) ++ st) := by
  obtain ⟨d1, d2⟩ := hd
  simp only at d1
  have hxd := depth_mono d1 hx
  have hyd := depth_small d1 hy
  have hyd' := depth_mono (s' := y.2 - y.1) d1 (by omega)
  by_cases hx1 : x.1 < x.2
  · have p1 := push_ok hx1 hxd
    by_cases hy1 : y.1 < y.2
    · have p2 := push_ok (n := n) (st := x :: st) hy1 (by simpa using hyd)
      refine ⟨y :: x :: st, ?_, ⟨by simpa using hyd, hxd, d2⟩, by simp [hx1, hy1]⟩
      simp only [pushIf, if_pos hx1, p1, Option.bind_some, if_pos hy1, p2]
    · refine ⟨x :: st, ?_, ⟨hxd, d2⟩, by simp [hx1, hy1]⟩
      simp only [pushIf, if_pos hx1, p1, Option.bind_some, if_neg hy1]
  · by_cases hy1 : y.1 < y.2
    · have p2 := push_ok (n := n) (st := st) hy1 hyd'
      refine ⟨y :: st, ?_, ⟨hyd', d2⟩, by simp [hx1, hy1]⟩
      simp only [pushIf, if_neg hx1, Option.bind_some, if_pos hy1, p2]
    · refine ⟨st, ?_, d2, by simp [hx1, hy1]⟩
      simp only [pushIf, if_neg hx1, Option.bind_some, if_neg hy1]

theorem measure'_pushes {x y : Int × Int} {st : List (Int × Int)} {b e : Int} (hbe : b < e)
    (h : (x.2 - x.1 + 1).toNat + (y.2 - y.1 + 1).toNat + 1 ≤ (e - b + 1).toNat) :
    measure' ((if y.1 < y.2 then [y] else []) ++ ((if x.1 < x.2 then [x] else []) ++ st)) <
      measure' ((b, e) :: st) := by
  by_cases hx : x.1 < x.2 <;> by_cases hy : y.1 < y.2 <;> simp [hx, hy, measure'] <;> omega

theorem step_spec {n : Nat} {c : Nat → Nat → Int} (hc : StrictTotal c) {m0 : Mem}
    (hinj : ∀ i j : Int, 0 ≤ i → i < n → 0 ≤ j → j < n → m0 i = m0 j → i = j)
    (rand : Nat → Nat) {s : QS} (inv : Inv n c m0 s) (hne : s.stack ≠ []) :
    ∃ s', qsStep n (((log2u (n + 1) : Int) + 2) * 2) c rand s = some s' ∧ Inv n c m0 s' ∧
      measure' s'.stack < measure' s.stack := by
  rcases s with ⟨stack, m, calls⟩
  cases stack with
  | nil => exact absurd rfl hne
  | cons be st =>
    obtain ⟨b, e⟩ := be
    have hbd : 0 ≤ b ∧ e < n := inv.bounds (b, e) (by simp)
    have hds : Depth n ((b, e) :: st) := inv.depth
    have hdj := inv.disj
    have hbst : ∀ x ∈ st, 0 ≤ x.1 ∧ x.2 < n := fun x hx => inv.bounds x (by simp [hx])
    by_cases hbe : b < e
    · obtain ⟨p, m', q1, q2, q3, q4, q5, q6⟩ :=
        partition_spec (n := n) (c := c) (rand calls) m hbd.1 hbe hbd.2
      have hperm0 : PermOn 0 ((n : Int) - 1) m0 m' :=
        inv.perm.trans (q4.mono hbd.1 (by omega))
      have key := sorted_after hc hinj hbd.1 hbd.2 ⟨q2, q3⟩ hdj inv.sorted q4 hperm0 q5 q6
      -- the two orders of pushing
      have main : ∀ x y : Int × Int, ((x = (b, p - 1) ∧ y = (p + 1, e)) ∨
          (x = (p + 1, e) ∧ y = (b, p - 1))) → 2 * (y.2 - y.1 + 2) ≤ e - b + 2 →
          ∃ st', (pushIf (((log2u (n + 1) : Int) + 2) * 2) x st).bind
            (pushIf (((log2u (n + 1) : Int) + 2) * 2) y) = some st' ∧
            Inv n c m0 ⟨st', m', calls + 1⟩ ∧ measure' st' < measure' ((b, e) :: st) := by
        intro x y hxy hsmall
        have hx : x.2 - x.1 ≤ e - b := by
          rcases hxy with ⟨rfl, rfl⟩ | ⟨rfl, rfl⟩ <;> simp only <;> omega
        obtain ⟨st', h1, h2, h3⟩ := push_two hbe hds hx hsmall
        refine ⟨st', h1, ?_, ?_⟩
        · have hmem : ∀ z, z ∈ st' ↔ (z = y ∧ y.1 < y.2) ∨ (z = x ∧ x.1 < x.2) ∨ z ∈ st := by
            intro z; rw [h3]
            by_cases a1 : y.1 < y.2 <;> by_cases a2 : x.1 < x.2 <;> simp [a1, a2]
          constructor
          · intro z hz
            rcases (hmem z).1 hz with ⟨rfl, hz'⟩ | ⟨rfl, hz'⟩ | hz'
            · rcases hxy with ⟨rfl, rfl⟩ | ⟨rfl, rfl⟩ <;> simp only <;> omega
            · rcases hxy with ⟨rfl, rfl⟩ | ⟨rfl, rfl⟩ <;> simp only <;> omega
            · exact hbst z hz'
          · show st'.Pairwise _
            rw [h3, List.pairwise_append, List.pairwise_append]
            have hst := (List.pairwise_cons.1 hdj).2
            have hbe' := (List.pairwise_cons.1 hdj).1
            refine ⟨by split <;> simp, ⟨by split <;> simp, hst, ?_⟩, ?_⟩
            · intro z hz w hw
              split at hz
              · simp only [List.mem_singleton] at hz
                have := hbe' w hw
                simp only at this
                rcases hxy with ⟨rfl, rfl⟩ | ⟨rfl, rfl⟩ <;> subst hz <;> simp only at * <;> omega
              · simp at hz
            · intro z hz w hw
              split at hz
              · simp only [List.mem_singleton] at hz
                rw [List.mem_append] at hw
                rcases hw with hw | hw
                · split at hw
                  · simp only [List.mem_singleton] at hw
                    rcases hxy with ⟨rfl, rfl⟩ | ⟨rfl, rfl⟩ <;> subst hz <;> subst hw <;>
                      simp only at * <;> omega
                  · simp at hw
                · have := hbe' w hw
                  simp only at this
                  rcases hxy with ⟨rfl, rfl⟩ | ⟨rfl, rfl⟩ <;> subst hz <;> simp only at * <;> omega
              · simp at hz
          · intro i j hi hij hj
            rcases key i j hi hij hj with h | ⟨z, hz, hz'⟩ | h | h
            · exact Or.inl h
            · exact Or.inr ⟨z, (hmem z).2 (Or.inr (Or.inr hz)), hz'⟩
            · right
              refine ⟨(b, p - 1), (hmem _).2 ?_, h⟩
              rcases hxy with ⟨rfl, rfl⟩ | ⟨rfl, rfl⟩
              · exact Or.inr (Or.inl ⟨rfl, by simp only; omega⟩)
              · exact Or.inl ⟨rfl, by simp only; omega⟩
            · right
              refine ⟨(p + 1, e), (hmem _).2 ?_, h⟩
              rcases hxy with ⟨rfl, rfl⟩ | ⟨rfl, rfl⟩
              · exact Or.inl ⟨rfl, by simp only; omega⟩
              · exact Or.inr (Or.inl ⟨rfl, by simp only; omega⟩)
          · exact hperm0
          · exact h2
        · rw [h3]
          apply measure'_pushes hbe
          rcases hxy with ⟨rfl, rfl⟩ | ⟨rfl, rfl⟩ <;> simp only <;> omega
      by_cases hlarge : p - b > e - p
      · obtain ⟨st', h1, h2, h3⟩ := main (b, p - 1) (p + 1, e) (Or.inl ⟨rfl, rfl⟩)
          (by simp only; omega)
        refine ⟨⟨st', m', calls + 1⟩, ?_, h2, h3⟩
        simp only [qsStep, if_pos hbe, q1, Option.bind_some, if_pos hlarge, h1, Option.map_some]
      · obtain ⟨st', h1, h2, h3⟩ := main (p + 1, e) (b, p - 1) (Or.inr ⟨rfl, rfl⟩)
          (by simp only; omega)
        refine ⟨⟨st', m', calls + 1⟩, ?_, h2, h3⟩
        simp only [qsStep, if_pos hbe, q1, Option.bind_some, if_neg hlarge, h1, Option.map_some]
    · refine ⟨⟨st, m, calls⟩, by simp only [qsStep, if_neg hbe], ?_, ?_⟩
      · refine ⟨hbst, (List.pairwise_cons.1 hdj).2, ?_, inv.perm, hds.2⟩
        intro i j hi hij hj
        rcases inv.sorted i j hi hij hj with h | ⟨x, hx, hx'⟩
        · exact Or.inl h
        · rcases List.mem_cons.1 hx with rfl | hx
          · simp only at hx'; omega
          · exact Or.inr ⟨x, hx, hx'⟩
      · simp only [measure']; omega

theorem iter_spec {n : Nat} {c : Nat → Nat → Int} (hc : StrictTotal c) {m0 : Mem}
    (hinj : ∀ i j : Int, 0 ≤ i → i < n → 0 ≤ j → j < n → m0 i = m0 j → i = j)
    (rand : Nat → Nat) (f : Nat) : ∀ s : QS, Inv n c m0 s → measure' s.stack ≤ f →
    ∃ m', qsIter n (((log2u (n + 1) : Int) + 2) * 2) c rand f s = .done m' ∧
      PermOn 0 ((n : Int) - 1) m0 m' ∧
      ∀ i j : Int, 0 ≤ i → i < j → j < n → c (m' i) (m' j) ≤ 0 := by
  have done : ∀ s : QS, Inv n c m0 s → s.stack = [] → PermOn 0 ((n : Int) - 1) m0 s.m ∧
      ∀ i j : Int, 0 ≤ i → i < j → j < n → c (s.m i) (s.m j) ≤ 0 := by
    intro s inv hs
    refine ⟨inv.perm, fun i j hi hij hj => ?_⟩
    rcases inv.sorted i j hi hij hj with h | ⟨x, hx, _⟩
    · exact h
    · rw [hs] at hx; simp at hx
  induction f with
  | zero =>
    intro s inv hm
    have hs : s.stack = [] := by
      cases h : s.stack with
      | nil => rfl
      | cons x st => rw [h] at hm; simp [measure'] at hm
    exact ⟨s.m, by simp [qsIter, hs], done s inv hs⟩
  | succ f ih =>
    intro s inv hm
    by_cases hs : s.stack = []
    · exact ⟨s.m, by simp [qsIter, hs], done s inv hs⟩
    · obtain ⟨s', h1, h2, h3⟩ := step_spec hc hinj rand inv hs
      obtain ⟨m', g1, g2⟩ := ih s' h2 (by omega)
      refine ⟨m', ?_, g2⟩
      simp only [qsIter, List.isEmpty_iff, hs, if_false, h1, g1]

theorem PermOn.toList {n : Nat} {m m' : Mem} (h : PermOn 0 ((n : Int) - 1) m m') :
    (toList n m').Perm (toList n m) := by
  obtain ⟨s, a, b⟩ := h
  unfold Sort.toList
  have e1 : (List.range n).map (fun k : Nat => m' (k : Int)) =
      ((List.range n).map (fun k : Nat => s (k : Int))).map m := by
    rw [List.map_map]; apply List.map_congr_left; intro k _; exact a k
  have e2 : (List.range n).map (fun k : Nat => m (k : Int)) =
      ((List.range n).map (fun k : Nat => (k : Int))).map m := by
    rw [List.map_map]; rfl
  rw [e1, e2]
  apply List.Perm.map
  rw [List.perm_ext_iff_of_nodup]
  · intro x
    simp only [List.mem_map, List.mem_range]
    constructor
    · rintro ⟨k, hk, rfl⟩
      have := perm_inside b (k := (k : Int)) (by omega)
      exact ⟨(s k).toNat, by omega, by omega⟩
    · rintro ⟨k, hk, rfl⟩
      have b' : ∀ k, (k < 0 ∨ (n : Int) - 1 < k) → s.symm k = k := by
        intro k hk; rw [Equiv.symm_apply_eq, b k hk]
      have := perm_inside b' (k := (k : Int)) (by omega)
      refine ⟨(s.symm k).toNat, by omega, ?_⟩
      have h2 : (((s.symm (k : Int)).toNat : Nat) : Int) = s.symm k := by omega
      rw [h2, Equiv.apply_symm_apply]
  · apply List.Nodup.map
    · intro x y hxy; exact_mod_cast s.injective hxy
    · exact List.nodup_range
  · apply List.Nodup.map
    · intro x y hxy; simpa using hxy
    · exact List.nodup_range

theorem cmp_le_iff {α : Type} [LinearOrder α] (asc : Bool) (v : Nat → α) (x y : Nat) :
    cmp asc v x y ≤ 0 ↔ (if asc then v x < v y else v x > v y) ∨ (v x = v y ∧ x < y) := by
  unfold cmp
  by_cases h : (if asc then v x < v y else v x > v y) ∨ (v x = v y ∧ x < y)
  · simp only [if_pos h, h, iff_true]; decide
  · simp only [if_neg h, h, iff_false]; decide

theorem cmp_strictTotal {α : Type} [LinearOrder α] (asc : Bool) (v : Nat → α) :
    StrictTotal (cmp asc v) := by
  constructor
  · intro x y z h1 h2
    rw [cmp_le_iff] at *
    cases asc <;> simp only [if_true, Bool.false_eq_true, if_false] at * <;>
    · rcases h1 with h1 | ⟨h1, h1'⟩ <;> rcases h2 with h2 | ⟨h2, h2'⟩
      · exact Or.inl (by order)
      · exact Or.inl (by order)
      · exact Or.inl (by order)
      · exact Or.inr ⟨by order, by omega⟩
  · intro x y hne h
    rw [cmp_le_iff] at *
    cases asc <;> simp only [if_true, Bool.false_eq_true, if_false] at * <;>
    · rcases lt_trichotomy (v x) (v y) with h1 | h1 | h1
      · simp_all
      · by_cases h2 : x < y
        · exact absurd (Or.inr ⟨h1, h2⟩) h
        · exact Or.inr ⟨h1.symm, by omega⟩
      · simp_all

theorem quickSort_spec {c : Nat → Nat → Int} (hc : StrictTotal c) (rand : Nat → Nat) (n : Nat)
    (m : Mem) (hinj : ∀ i j : Int, 0 ≤ i → i < n → 0 ≤ j → j < n → m i = m j → i = j) :
    ∃ m', quickSortCustom c rand n m (2 * n + 1) = .done m' ∧
      PermOn 0 ((n : Int) - 1) m m' ∧
      ∀ i j : Int, 0 ≤ i → i < j → j < n → c (m' i) (m' j) ≤ 0 := by
  have hp : push (((log2u (n + 1) : Int) + 2) * 2) [] (0, (n : Int) - 1) =
      some [(0, (n : Int) - 1)] := by
    rw [push, if_pos]; simp; omega
  simp only [quickSortCustom, hp]
  apply iter_spec hc hinj rand
  · constructor
    · intro x hx; simp at hx; subst hx; simp
    · simp
    · intro i j hi hij hj
      exact Or.inr ⟨(0, (n : Int) - 1), by simp, by simp only; omega⟩
    · exact PermOn.refl _ _ _
    · simp [Depth]; omega
  · simp [measure']

end Verif.Runtime.Sort
