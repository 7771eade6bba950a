import Verif.Krnl.GemmModel

namespace Verif.Krnl

open Finset

/-! ### Loops over a rectangle that write each cell once -/

theorem forLoop_nonpos {S : Type*} {lo hi : ℤ} {s : ℕ} (hs : 0 < s) (h : hi ≤ lo)
    (body : ℤ → S → Option S) (st : S) : forLoop lo hi s body st = some st := by
  unfold forLoop
  rw [starts_nil hs h]
  rfl

/-- A loop whose iterations update distinct cells. -/
theorem row_spec {R : Type*} (n : ℤ) (w : ℤ → ℤ) (v : ℤ → R → R)
    (body : ℤ → (ℤ → R) → Option (ℤ → R))
    (hb : ∀ c, 0 ≤ c → c < n → ∀ st, body c st = some (Function.update st (w c) (v c (st (w c)))))
    (hw : ∀ c c', 0 ≤ c → c < n → 0 ≤ c' → c' < n → w c = w c' → c = c') (st : ℤ → R) :
    ∃ st', forLoop 0 n 1 body st = some st' ∧
      (∀ c, 0 ≤ c → c < n → st' (w c) = v c (st (w c))) ∧
      ∀ y, (∀ c, 0 ≤ c → c < n → y ≠ w c) → st' y = st y := by
  rcases le_total n 0 with h | h
  · exact ⟨st, forLoop_nonpos (by omega) h _ _, fun c h0 h1 => by omega, fun _ _ => rfl⟩
  obtain ⟨s', e, h1, h2, _⟩ := forLoop_inv
    (fun x s => (∀ c, 0 ≤ c → c < x → s (w c) = v c (st (w c))) ∧
      (∀ c, x ≤ c → c < n → s (w c) = st (w c)) ∧
      ∀ y, (∀ c, 0 ≤ c → c < n → y ≠ w c) → s y = st y) body 0 n h (by
      intro x hx0 hxn s ⟨p1, p2, p3⟩
      refine ⟨_, hb x hx0 hxn s, ?_, ?_, ?_⟩
      · intro c hc0 hc
        by_cases hcx : c = x
        · subst hcx
          rw [Function.update_self, p2 c (le_refl _) hxn]
        · rw [Function.update_of_ne, p1 c hc0 (by omega)]
          intro e; exact hcx (hw c x hc0 (by omega) hx0 hxn e)
      · intro c hc hcn
        rw [Function.update_of_ne, p2 c (by omega) hcn]
        intro e
        have := hw c x (by omega) hcn hx0 hxn e
        omega
      · intro y hy
        rw [Function.update_of_ne (hy x hx0 hxn), p3 y hy])
    st ⟨fun c h0 h1 => by omega, fun _ _ _ => rfl, fun _ _ => rfl⟩
  exact ⟨s', e, h1, by tauto⟩

/-- A doubly nested loop whose iterations update distinct cells. -/
theorem rect_spec {R : Type*} (n0 n1 : ℤ) (w : ℤ → ℤ → ℤ) (v : ℤ → ℤ → R → R)
    (body : ℤ → ℤ → (ℤ → R) → Option (ℤ → R))
    (hb : ∀ r c, 0 ≤ r → r < n0 → 0 ≤ c → c < n1 → ∀ st,
      body r c st = some (Function.update st (w r c) (v r c (st (w r c)))))
    (hw : ∀ r c r' c', 0 ≤ r → r < n0 → 0 ≤ c → c < n1 → 0 ≤ r' → r' < n0 → 0 ≤ c' → c' < n1 →
      w r c = w r' c' → r = r' ∧ c = c') (st : ℤ → R) :
    ∃ st', forLoop 0 n0 1 (fun r st => forLoop 0 n1 1 (body r) st) st = some st' ∧
      (∀ r c, 0 ≤ r → r < n0 → 0 ≤ c → c < n1 → st' (w r c) = v r c (st (w r c))) ∧
      ∀ y, (∀ r c, 0 ≤ r → r < n0 → 0 ≤ c → c < n1 → y ≠ w r c) → st' y = st y := by
  rcases le_total n0 0 with h | h
  · exact ⟨st, forLoop_nonpos (by omega) h _ _, fun r c h0 h1 => by omega, fun _ _ => rfl⟩
  obtain ⟨s', e, h1, h2, h3⟩ := forLoop_inv
    (fun x s => (∀ r c, 0 ≤ r → r < x → 0 ≤ c → c < n1 → s (w r c) = v r c (st (w r c))) ∧
      (∀ r c, x ≤ r → r < n0 → 0 ≤ c → c < n1 → s (w r c) = st (w r c)) ∧
      ∀ y, (∀ r c, 0 ≤ r → r < n0 → 0 ≤ c → c < n1 → y ≠ w r c) → s y = st y)
    (fun r st => forLoop 0 n1 1 (body r) st) 0 n0 h (by
      intro x hx0 hxn s ⟨p1, p2, p3⟩
      obtain ⟨s', e, q1, q2⟩ := row_spec n1 (w x) (v x) (body x) (hb x · hx0 hxn)
        (fun c c' a1 a2 a3 a4 e => (hw x c x c' hx0 hxn a1 a2 hx0 hxn a3 a4 e).2) s
      refine ⟨s', e, ?_, ?_, ?_⟩
      · intro r c hr0 hr hc0 hc
        by_cases hrx : r = x
        · subst hrx
          rw [q1 c hc0 hc, p2 r c (le_refl _) hxn hc0 hc]
        · rw [q2, p1 r c hr0 (by omega) hc0 hc]
          intro c' hc0' hc' e
          exact hrx (hw r c x c' hr0 (by omega) hc0 hc hx0 hxn hc0' hc' e).1
      · intro r c hr hrn hc0 hc
        rw [q2, p2 r c (by omega) hrn hc0 hc]
        intro c' hc0' hc' e
        have := (hw r c x c' (by omega) hrn hc0 hc hx0 hxn hc0' hc' e).1
        omega
      · intro y hy
        rw [q2 y (fun c h0 h1 => hy x c hx0 hxn h0 h1), p3 y hy])
    st ⟨fun r c h0 h1 => by omega, fun _ _ _ _ _ _ => rfl, fun _ _ => rfl⟩
  exact ⟨s', e, h1, h3⟩

/-! ### Copies -/

section
variable {R : Type*}

theorem View.pos_eq {v : View} {r c : ℤ} (h1 : 0 ≤ r) (h2 : r < v.rows) (h3 : 0 ≤ c)
    (h4 : c < v.cols) : v.pos r c = some (v.flat r c) := by
  unfold View.pos; rw [if_pos ⟨h1, h2, h3, h4⟩]

/-- A copy into a buffer. -/
theorem copyTo_spec (bv sv : View) (s0 s1 : ℤ) (trans : Bool) (n0 n1 : ℤ) (S buf : ℤ → R)
    (hb0 : n0 ≤ bv.rows) (hb1 : n1 ≤ bv.cols) (h0 : 0 ≤ s0) (h1 : 0 ≤ s1)
    (hs : if trans then n1 + s0 ≤ sv.rows ∧ n0 + s1 ≤ sv.cols
      else n0 + s0 ≤ sv.rows ∧ n1 + s1 ≤ sv.cols) :
    ∃ buf', copyTo bv sv s0 s1 trans n0 n1 S buf = some buf' ∧
      (∀ r c, 0 ≤ r → r < n0 → 0 ≤ c → c < n1 → buf' (bv.flat r c) =
        S (if trans then sv.flat (c + s0) (r + s1) else sv.flat (r + s0) (c + s1))) ∧
      ∀ y, (∀ r c, 0 ≤ r → r < n0 → 0 ≤ c → c < n1 → y ≠ bv.flat r c) → buf' y = buf y := by
  unfold copyTo
  refine rect_spec n0 n1 (fun r c => bv.flat r c)
    (fun r c _ => S (if trans then sv.flat (c + s0) (r + s1) else sv.flat (r + s0) (c + s1))) _
    ?_ ?_ buf
  · intro r c hr0 hr hc0 hc st
    cases trans
    · simp only [Bool.false_eq_true, if_false] at hs ⊢
      rw [View.pos_eq (by omega) (by omega) (by omega) (by omega),
        View.pos_eq hr0 (by omega) hc0 (by omega)]
      rfl
    · simp only [if_true] at hs ⊢
      rw [View.pos_eq (by omega) (by omega) (by omega) (by omega),
        View.pos_eq hr0 (by omega) hc0 (by omega)]
      rfl
  · intro r c r' c' _ _ _ _ _ _ _ _ e
    exact View.flat_inj ⟨by omega, by omega⟩ ⟨by omega, by omega⟩ e

/-- A copy out of a buffer. -/
theorem copyFrom_spec (bv dv : View) (ub0 ub1 : IE) (s0 s1 : ℤ) (buf D : ℤ → R)
    (hb0 : tileSize s0 bv.rows ub0 ≤ bv.rows) (hb1 : tileSize s1 bv.cols ub1 ≤ bv.cols)
    (h0 : 0 ≤ s0) (h1 : 0 ≤ s1)
    (hs0 : tileSize s0 bv.rows ub0 + s0 ≤ dv.rows) (hs1 : tileSize s1 bv.cols ub1 + s1 ≤ dv.cols) :
    ∃ D', copyFromBuffer bv dv ub0 ub1 s0 s1 buf D = some D' ∧
      (∀ r c, 0 ≤ r → r < tileSize s0 bv.rows ub0 → 0 ≤ c → c < tileSize s1 bv.cols ub1 →
        D' (dv.flat (r + s0) (c + s1)) = buf (bv.flat r c)) ∧
      ∀ y, (∀ r c, 0 ≤ r → r < tileSize s0 bv.rows ub0 → 0 ≤ c → c < tileSize s1 bv.cols ub1 →
        y ≠ dv.flat (r + s0) (c + s1)) → D' y = D y := by
  unfold copyFromBuffer
  refine rect_spec _ _ (fun r c => dv.flat (r + s0) (c + s1)) (fun r c _ => buf (bv.flat r c)) _
    ?_ ?_ D
  · intro r c hr0 hr hc0 hc st
    rw [View.pos_eq hr0 (by omega) hc0 (by omega),
      View.pos_eq (by omega) (by omega) (by omega) (by omega)]
    rfl
  · intro r c r' c' _ _ _ _ _ _ _ _ e
    obtain ⟨h1, h2⟩ := View.flat_inj (v := dv) ⟨by omega, by omega⟩ ⟨by omega, by omega⟩ e
    omega

/-! ### Tiles -/

/-- No loop of a dimension leaves its range alone. -/
theorem boxes_other {n : ℕ} (nest : List (Lp n)) (d : Fin n) :
    (∀ l ∈ nest, l.dim ≠ d) → ∀ b c : Box n, c ∈ boxes nest b → c d = b d := by
  induction nest with
  | nil =>
    intro _ b c hc
    simp only [boxes, List.mem_singleton] at hc
    rw [hc]
  | cons l ls ih =>
    intro h b c hc
    have ih' := ih (fun m hm => h m (by simp [hm]))
    rw [boxes] at hc
    by_cases ht : l.triv
    · rw [if_pos ht] at hc; exact ih' b c hc
    · rw [if_neg ht, List.mem_flatMap] at hc
      obtain ⟨x, _, hc⟩ := hc
      rw [ih' _ c hc, Function.update_of_ne (Ne.symm (h l (by simp)))]

/-- A range is a cache tile of size `t` below `hi`. -/
def IsTile (x : ℤ × ℤ) (t : ℕ) (hi : ℤ) : Prop :=
  0 ≤ x.1 ∧ x.1 < x.2 ∧ x.2 = min (x.1 + t) hi ∧ (t : ℤ) ∣ x.1

theorem boxes_isTile {n : ℕ} (nest : List (Lp n)) (d : Fin n) (t : ℕ) (ht : 0 < t) (b c : Box n)
    (hs : ∀ l ∈ nest, 0 < l.step) (hm : ⟨d, t, false⟩ ∈ nest)
    (hu : ∀ l ∈ nest, l.dim = d → l.step = t) (h0 : (b d).1 = 0) (hc : c ∈ boxes nest b) :
    IsTile (c d) t (b d).2 := by
  obtain ⟨h1, h2, h3⟩ := boxes_tile nest d t ht (b d).2 hs
    (fun l hl e _ => by rw [hu l hl e]) b c hc (by rw [h0]; exact dvd_zero _) (le_refl _)
    (Or.inl rfl) (Or.inr ⟨_, hm, rfl, rfl, rfl⟩)
  have := boxes_sub nest hs b c hc d
  exact ⟨by omega, h1, h2, h3⟩

variable [Semiring R]

/-- `A`, transposed or not. -/
def Gemm.opA (g : Gemm) (A : ℤ → R) (i k : ℤ) : R :=
  A (if g.aT then k * g.I.val + i else i * g.K.val + k)
/-- `B`, transposed or not. -/
def Gemm.opB (g : Gemm) (B : ℤ → R) (k j : ℤ) : R :=
  B (if g.bT then j * g.K.val + k else k * g.J.val + j)

omit [Semiring R] in
theorem Gemm.copyA_spec (g : Gemm) (A buf : ℤ → R) (i1 i2 k1 k2 : ℤ)
    (hi : IsTile (i1, i2) 32 g.I.val) (hk : IsTile (k1, k2) 256 g.K.val) :
    ∃ buf', g.copyA A i1 k1 buf = some buf' ∧
      ∀ i k, i1 ≤ i → i < i2 → k1 ≤ k → k < k2 →
        buf' (aBuffView.flat (i - i1) (k - k1)) = g.opA A i k := by
  obtain ⟨i0, il, ie, id⟩ := hi
  obtain ⟨k0, kl, ke, kd⟩ := hk
  simp only at i0 il ie id k0 kl ke kd
  have e1 := tileSize_eq (i := i1) (block := 32) (ub := g.I) (by omega) id (by omega)
  have e2 := tileSize_eq (i := k1) (block := 256) (ub := g.K) (by omega) kd (by omega)
  unfold Gemm.copyA copyToBuffer Gemm.aView
  cases h : g.aT
  · simp only [Bool.false_eq_true, if_false]
    obtain ⟨b', e, h1, _⟩ := copyTo_spec aBuffView ⟨0, g.I.val, g.K.val⟩ i1 k1 false
      (tileSize i1 aBuffView.rows g.I) (tileSize k1 aBuffView.cols g.K) A buf
      (by simp only [aBuffView]; omega) (by simp only [aBuffView]; omega) i0 k0
      (by simp only [aBuffView, Bool.false_eq_true, if_false]; omega)
    refine ⟨b', e, ?_⟩
    intro i k a1 a2 a3 a4
    rw [h1 _ _ (by omega) (by simp only [aBuffView]; omega) (by omega)
      (by simp only [aBuffView]; omega)]
    simp [Gemm.opA, h, View.flat]
  · simp only [if_true]
    obtain ⟨b', e, h1, _⟩ := copyTo_spec aBuffView ⟨0, g.K.val, g.I.val⟩ k1 i1 true
      (tileSize i1 aBuffView.rows g.I) (tileSize k1 aBuffView.cols g.K) A buf
      (by simp only [aBuffView]; omega) (by simp only [aBuffView]; omega) k0 i0
      (by simp only [aBuffView, if_true]; omega)
    refine ⟨b', e, ?_⟩
    intro i k a1 a2 a3 a4
    rw [h1 _ _ (by omega) (by simp only [aBuffView]; omega) (by omega)
      (by simp only [aBuffView]; omega)]
    simp [Gemm.opA, h, View.flat]

omit [Semiring R] in
theorem Gemm.copyB_spec (g : Gemm) (B buf : ℤ → R) (k1 k2 j1 j2 : ℤ)
    (hk : IsTile (k1, k2) 256 g.K.val) (hj : IsTile (j1, j2) 64 g.J.val) :
    ∃ buf', g.copyB B k1 j1 buf = some buf' ∧
      ∀ k j, k1 ≤ k → k < k2 → j1 ≤ j → j < j2 →
        buf' (bBuffView.flat (k - k1) (j - j1)) = g.opB B k j := by
  obtain ⟨i0, il, ie, id⟩ := hj
  obtain ⟨k0, kl, ke, kd⟩ := hk
  simp only at i0 il ie id k0 kl ke kd
  have e1 := tileSize_eq (i := j1) (block := 64) (ub := g.J) (by omega) id (by omega)
  have e2 := tileSize_eq (i := k1) (block := 256) (ub := g.K) (by omega) kd (by omega)
  unfold Gemm.copyB copyToBuffer Gemm.bView
  cases h : g.bT
  · simp only [Bool.false_eq_true, if_false]
    obtain ⟨b', e, h1, _⟩ := copyTo_spec bBuffView ⟨0, g.K.val, g.J.val⟩ k1 j1 false
      (tileSize k1 bBuffView.rows g.K) (tileSize j1 bBuffView.cols g.J) B buf
      (by simp only [bBuffView]; omega) (by simp only [bBuffView]; omega) k0 i0
      (by simp only [bBuffView, Bool.false_eq_true, if_false]; omega)
    refine ⟨b', e, ?_⟩
    intro i k a1 a2 a3 a4
    rw [h1 _ _ (by omega) (by simp only [bBuffView]; omega) (by omega)
      (by simp only [bBuffView]; omega)]
    simp [Gemm.opB, h, View.flat]
  · simp only [if_true]
    obtain ⟨b', e, h1, _⟩ := copyTo_spec bBuffView ⟨0, g.J.val, g.K.val⟩ j1 k1 true
      (tileSize k1 bBuffView.rows g.K) (tileSize j1 bBuffView.cols g.J) B buf
      (by simp only [bBuffView]; omega) (by simp only [bBuffView]; omega) i0 k0
      (by simp only [bBuffView, if_true]; omega)
    refine ⟨b', e, ?_⟩
    intro i k a1 a2 a3 a4
    rw [h1 _ _ (by omega) (by simp only [bBuffView]; omega) (by omega)
      (by simp only [bBuffView]; omega)]
    simp [Gemm.opB, h, View.flat]

/-- The contribution of one index triple to a destination tile at `cMem`. -/
def Gemm.point (g : Gemm) (A B : ℤ → R) (c : View) (cMem : ℤ × ℤ) (p : Fin 3 → ℤ) : ℤ → R :=
  fun y => if y = c.flat (p 0 - cMem.1) (p 1 - cMem.2) then
    g.opA A (p 0) (p 2) * g.opB B (p 2) (p 1) else 0

/-- The register loops over filled buffers. -/
theorem Gemm.mm_spec (g : Gemm) (A B : ℤ → R) (c : View) (cMem : ℤ × ℤ) (t : Box 3)
    (a b r : ℤ → R) (hvl : ∃ e, g.archVL = 2 ^ e)
    (hi : IsTile (t 0) 32 g.I.val) (hj : IsTile (t 1) 64 g.J.val) (hk : IsTile (t 2) 256 g.K.val)
    (fc : Fits c ((t 0).1 - cMem.1, (t 1).1 - cMem.2) ((t 0).2 - (t 0).1) ((t 1).2 - (t 1).1))
    (ha : ∀ i k, (t 0).1 ≤ i → i < (t 0).2 → (t 2).1 ≤ k → k < (t 2).2 →
        a (aBuffView.flat (i - (t 0).1) (k - (t 2).1)) = g.opA A i k)
    (hb : ∀ k j, (t 2).1 ≤ k → k < (t 2).2 → (t 1).1 ≤ j → j < (t 1).2 →
        b (bBuffView.flat (k - (t 2).1) (j - (t 1).1)) = g.opB B k j) :
    (g.mm c cMem (t 0).1 (t 1).1 (t 2).1).tiles regNest t a b r =
      some (r + ∑ p ∈ pts t, g.point A B c cMem p) := by
  obtain ⟨i0, il, ie, id⟩ := hi
  obtain ⟨j0, jl, je, jd⟩ := hj
  obtain ⟨k0, kl, ke, kd⟩ := hk
  push_cast at ie id je jd ke kd
  rw [MM.tiles_spec]
  · congr 2
    refine Finset.sum_congr rfl fun p hp => ?_
    have hp := mem_pts.1 hp
    have h0 := hp 0
    have h1 := hp 1
    have h2 := hp 2
    funext y
    simp only [MM.point, Gemm.mm, Gemm.point]
    rw [ha _ _ h0.1 h0.2 h2.1 h2.2, hb _ _ h2.1 h2.2 h1.1 h1.2]
    congr
  · intro l hl
    simp only [regNest, List.mem_cons, List.not_mem_nil, or_false] at hl
    rcases hl with rfl | rfl <;> simp
  · refine ⟨by simp [Gemm.mm], ?_, Or.inr ⟨⟨0, 4, false⟩, by simp [regNest], rfl, rfl, rfl⟩⟩
    intro l hl h1 h2
    simp only [regNest, List.mem_cons, List.not_mem_nil, or_false] at hl
    rcases hl with rfl | rfl <;> simp_all [Gemm.mm]
  · refine ⟨by simp [Gemm.mm], ?_, Or.inr ⟨⟨1, 16, false⟩, by simp [regNest], rfl, rfl, rfl⟩⟩
    intro l hl h1 h2
    simp only [regNest, List.mem_cons, List.not_mem_nil, or_false] at hl
    rcases hl with rfl | rfl <;> simp_all [Gemm.mm]
  · refine ⟨by simp [Gemm.mm], ?_, Or.inl ⟨kl, by simp only [Gemm.mm]; push_cast; omega⟩⟩
    intro l hl h1 h2
    simp only [regNest, List.mem_cons, List.not_mem_nil, or_false] at hl
    rcases hl with rfl | rfl <;> simp_all
  · simp only [Gemm.mm]; push_cast; omega
  · simp only [Gemm.mm]; push_cast; omega
  · simp only [Gemm.mm]; push_cast; omega
  · simp only [Gemm.mm]; omega
  · simp only [Gemm.mm]; omega
  · simp only [Gemm.mm]; omega
  · simp only [Gemm.mm]; push_cast; omega
  · simp only [Gemm.mm]; push_cast; omega
  · simp only [Gemm.mm]; push_cast; omega
  · exact j0
  · refine ⟨?_, ?_, ?_, ?_⟩ <;> simp only [Gemm.mm, aBuffView] <;> omega
  · refine ⟨?_, ?_, ?_, ?_⟩ <;> simp only [Gemm.mm, bBuffView] <;> omega
  · exact fc
  · exact hvl
  · intro h1 h2 h3
    simp only [Gemm.mm, Gemm.simdize] at h1 h2 h3
    rw [h2, h3] at h1
    simp at h1

/-! ### The direct variant -/

theorem Gemm.directI_spec (g : Gemm) (A B : ℤ → R) (t : Box 3) (s : GSt R)
    (hvl : ∃ e, g.archVL = 2 ^ e)
    (hi : IsTile (t 0) 32 g.I.val) (hj : IsTile (t 1) 64 g.J.val) (hk : IsTile (t 2) 256 g.K.val)
    (hb : ∀ k j, (t 2).1 ≤ k → k < (t 2).2 → (t 1).1 ≤ j → j < (t 1).2 →
        s.b (bBuffView.flat (k - (t 2).1) (j - (t 1).1)) = g.opB B k j) :
    ∃ s', g.directI A s t = some s' ∧ s'.b = s.b ∧
      s'.out = s.out + ∑ p ∈ pts t, g.point A B g.rView (0, 0) p := by
  obtain ⟨a, ea, ha⟩ := g.copyA_spec A s.a (t 0).1 (t 0).2 (t 2).1 (t 2).2 hi hk
  have h := g.mm_spec A B g.rView (0, 0) t a s.b s.out hvl hi hj hk (by
    obtain ⟨i0, il, ie, id⟩ := hi
    obtain ⟨j0, jl, je, jd⟩ := hj
    refine ⟨?_, ?_, ?_, ?_⟩ <;> simp only [Gemm.rView] <;> omega) ha hb
  unfold Gemm.directI
  rw [ea, Option.bind_some, h]
  exact ⟨_, rfl, rfl, rfl⟩

theorem Gemm.directJK_spec (g : Gemm) (A B : ℤ → R) (t : Box 3) (s : GSt R)
    (hvl : ∃ e, g.archVL = 2 ^ e) (hi : t 0 = (0, g.I.val))
    (hj : IsTile (t 1) 64 g.J.val) (hk : IsTile (t 2) 256 g.K.val) :
    ∃ s', g.directJK A B s t = some s' ∧
      s'.out = s.out + ∑ p ∈ pts t, g.point A B g.rView (0, 0) p := by
  obtain ⟨b, eb, hb⟩ := g.copyB_spec B s.b (t 2).1 (t 2).2 (t 1).1 (t 1).2 hk hj
  unfold Gemm.directJK
  rw [eb, Option.bind_some]
  have hs : ∀ l ∈ ([⟨0, 32, false⟩] : List (Lp 3)), 0 < l.step := by
    intro l hl; simp only [List.mem_singleton] at hl; subst hl; simp
  obtain ⟨s', e, _, h⟩ := foldlM_acc (fun s : GSt R => s.out) (fun s => s.b = b) (g.directI A)
    (fun u => ∑ p ∈ pts u, g.point A B g.rView (0, 0) p)
    (boxes [⟨0, 32, false⟩] t) (by
      intro u hu st hst
      have h0 := boxes_isTile _ 0 32 (by omega) t u hs (by simp)
        (by intro l hl _; simp only [List.mem_singleton] at hl; rw [hl]) (by rw [hi]) hu
      have h1 := boxes_other _ 1 (by
        intro l hl; simp only [List.mem_singleton] at hl; subst hl; decide) t u hu
      have h2 := boxes_other _ 2 (by
        intro l hl; simp only [List.mem_singleton] at hl; subst hl; decide) t u hu
      rw [hi] at h0
      obtain ⟨s', e, h3, h4⟩ := g.directI_spec A B u st hvl h0 (h1 ▸ hj) (h2 ▸ hk) (by
        rw [h1, h2, hst]; exact hb)
      exact ⟨s', e, h3.trans hst, h4⟩) { s with b := b } rfl
  refine ⟨s', e, ?_⟩
  rw [h, sum_boxes _ hs]

/-! ### The variant with a tiled result -/

theorem Gemm.tileRk_spec (g : Gemm) (A B : ℤ → R) (t : Box 3) (s : GSt R)
    (hvl : ∃ e, g.archVL = 2 ^ e)
    (hi : IsTile (t 0) 32 g.I.val) (hj : IsTile (t 1) 64 g.J.val) (hk : IsTile (t 2) 256 g.K.val) :
    ∃ s', g.tileRk A B s t = some s' ∧ s'.out = s.out ∧
      s'.r = s.r + ∑ p ∈ pts t, g.point A B aBuffView ((t 0).1, (t 1).1) p := by
  obtain ⟨a, ea, ha⟩ := g.copyA_spec A s.a (t 0).1 (t 0).2 (t 2).1 (t 2).2 hi hk
  obtain ⟨b, eb, hb⟩ := g.copyB_spec B s.b (t 2).1 (t 2).2 (t 1).1 (t 1).2 hk hj
  have h := g.mm_spec A B aBuffView ((t 0).1, (t 1).1) t a b s.r hvl hi hj hk (by
    obtain ⟨i0, il, ie, id⟩ := hi
    obtain ⟨j0, jl, je, jd⟩ := hj
    refine ⟨?_, ?_, ?_, ?_⟩ <;> simp only [aBuffView] <;> omega) ha hb
  unfold Gemm.tileRk
  rw [ea, Option.bind_some, eb, Option.bind_some, h]
  exact ⟨_, rfl, rfl, rfl⟩

/-- In the tiled-result variant the number of columns is not a multiple of 256
known at compile time. -/
theorem Gemm.tileSize_r (g : Gemm) (hm : g.mustTileR = true) (j1 : ℤ) :
    tileSize j1 256 g.J = min (g.J.val - j1) 256 := by
  unfold tileSize
  rw [if_neg]
  rintro ⟨h1, h2⟩
  unfold Gemm.mustTileR at hm
  rw [h1] at hm
  simp only [Bool.not_true, Bool.false_or, Bool.and_eq_true, decide_eq_true_eq] at hm
  omega

theorem Gemm.tileRij_spec (g : Gemm) (A B : ℤ → R) (t : Box 3) (s : GSt R)
    (hvl : ∃ e, g.archVL = 2 ^ e) (hm : g.mustTileR = true)
    (hi : IsTile (t 0) 32 g.I.val) (hj : IsTile (t 1) 64 g.J.val) (hk : t 2 = (0, g.K.val)) :
    ∃ s', g.tileRij A B s t = some s' ∧
      s'.out = s.out + ∑ p ∈ pts t, g.point A B g.rView (0, 0) p := by
  have hi' := hi
  have hj' := hj
  obtain ⟨i0, il, ie, id⟩ := hi
  obtain ⟨j0, jl, je, jd⟩ := hj
  push_cast at ie id je jd
  have e0 := tileSize_eq (i := (t 0).1) (block := 32) (ub := g.I) (by omega) id (by omega)
  have e1 := g.tileSize_r hm (t 1).1
  obtain ⟨r, er, hr, _⟩ := copyTo_spec aBuffView g.rView (t 0).1 (t 1).1 false
    (tileSize (t 0).1 aBuffView.rows g.I) (tileSize (t 1).1 aBuffView.cols g.J) s.out s.r
    (by simp only [aBuffView]; omega) (by simp only [aBuffView]; omega) i0 j0
    (by simp only [aBuffView, Gemm.rView, Bool.false_eq_true, if_false]; omega)
  unfold Gemm.tileRij copyToBuffer
  simp only [Bool.false_eq_true, if_false] at hr ⊢
  rw [er, Option.bind_some]
  have hs : ∀ l ∈ ([⟨2, 256, false⟩] : List (Lp 3)), 0 < l.step := by
    intro l hl; simp only [List.mem_singleton] at hl; subst hl; simp
  obtain ⟨s1, es, ho, hr1⟩ := foldlM_acc (fun s : GSt R => s.r) (fun st => st.out = s.out)
    (g.tileRk A B)
    (fun u => ∑ p ∈ pts u, g.point A B aBuffView ((t 0).1, (t 1).1) p)
    (boxes [⟨2, 256, false⟩] t) (by
      intro u hu st hst
      have h2 := boxes_isTile _ 2 256 (by omega) t u hs (by simp)
        (by intro l hl _; simp only [List.mem_singleton] at hl; rw [hl]) (by rw [hk]) hu
      have h0 := boxes_other _ 0 (by
        intro l hl; simp only [List.mem_singleton] at hl; subst hl; decide) t u hu
      have h1 := boxes_other _ 1 (by
        intro l hl; simp only [List.mem_singleton] at hl; subst hl; decide) t u hu
      rw [hk] at h2
      obtain ⟨s', e, h3, h4⟩ := g.tileRk_spec A B u st hvl (h0 ▸ hi') (h1 ▸ hj') h2
      refine ⟨s', e, h3.trans hst, ?_⟩
      rw [h0, h1] at h4
      exact h4) { s with r := r } rfl
  rw [sum_boxes _ hs] at hr1
  simp only at hr1
  rw [es, Option.bind_some]
  obtain ⟨D, eD, hD, hD'⟩ := copyFrom_spec aBuffView g.rView g.I g.J (t 0).1 (t 1).1 s1.r s1.out
    (by simp only [aBuffView]; omega) (by simp only [aBuffView]; omega) i0 j0
    (by simp only [aBuffView, Gemm.rView]; omega) (by simp only [aBuffView, Gemm.rView]; omega)
  rw [eD]
  refine ⟨_, rfl, ?_⟩
  funext y
  simp only [Pi.add_apply, Finset.sum_apply]
  by_cases hy : ∃ r c, 0 ≤ r ∧ r < tileSize (t 0).1 aBuffView.rows g.I ∧ 0 ≤ c ∧
      c < tileSize (t 1).1 aBuffView.cols g.J ∧ y = g.rView.flat (r + (t 0).1) (c + (t 1).1)
  · obtain ⟨r', c', a1, a2, a3, a4, rfl⟩ := hy
    rw [hD r' c' a1 a2 a3 a4, hr1]
    simp only [Pi.add_apply, Finset.sum_apply]
    rw [hr r' c' a1 a2 a3 a4]
    congr 1
    refine Finset.sum_congr rfl fun p hp => ?_
    have hp := mem_pts.1 hp
    have h0 := hp 0
    have h1 := hp 1
    simp only [aBuffView] at a2 a4
    simp only [Gemm.point, sub_zero]
    have : aBuffView.flat r' c' = aBuffView.flat (p 0 - (t 0).1) (p 1 - (t 1).1) ↔
        g.rView.flat (r' + (t 0).1) (c' + (t 1).1) = g.rView.flat (p 0) (p 1) := by
      constructor
      · intro h
        obtain ⟨h3, h4⟩ := View.flat_inj (v := aBuffView) ⟨a3, by simp only [aBuffView]; omega⟩
          ⟨by omega, by simp only [aBuffView]; omega⟩ h
        rw [h3, h4]; congr 1 <;> ring
      · intro h
        obtain ⟨h3, h4⟩ := View.flat_inj (v := g.rView)
          ⟨by omega, by simp only [Gemm.rView]; omega⟩
          ⟨by omega, by simp only [Gemm.rView]; omega⟩ h
        rw [← h3, ← h4]; congr 1 <;> ring
    simp only [this]
  · rw [hD' y (by
      intro r' c' a1 a2 a3 a4 e
      exact hy ⟨r', c', a1, a2, a3, a4, e⟩), ho, Finset.sum_eq_zero, add_zero]
    intro p hp
    have hp := mem_pts.1 hp
    have h0 := hp 0
    have h1 := hp 1
    simp only [Gemm.point, sub_zero]
    rw [if_neg]
    intro e
    refine hy ⟨p 0 - (t 0).1, p 1 - (t 1).1, by omega, by simp only [aBuffView]; omega, by omega,
      by simp only [aBuffView]; omega, ?_⟩
    rw [e]; congr 1 <;> ring

theorem Gemm.product_spec (g : Gemm) (A B : ℤ → R) (s : GSt R) (hvl : ∃ e, g.archVL = 2 ^ e) :
    ∃ s', g.product A B s = some s' ∧
      s'.out = s.out + ∑ p ∈ pts g.box, g.point A B g.rView (0, 0) p := by
  unfold Gemm.product
  cases hm : g.mustTileR
  · simp only [Bool.false_eq_true, if_false]
    have hs : ∀ l ∈ ([⟨1, 64, false⟩, ⟨2, 256, false⟩] : List (Lp 3)), 0 < l.step := by
      intro l hl
      simp only [List.mem_cons, List.not_mem_nil, or_false] at hl
      rcases hl with rfl | rfl <;> simp
    obtain ⟨s', e, _, h⟩ := foldlM_acc (fun s : GSt R => s.out) (fun _ => True) (g.directJK A B)
      (fun u => ∑ p ∈ pts u, g.point A B g.rView (0, 0) p)
      (boxes [⟨1, 64, false⟩, ⟨2, 256, false⟩] g.box) (by
        intro u hu st _
        have h1 := boxes_isTile _ 1 64 (by omega) g.box u hs (by simp) (by
          intro l hl _
          simp only [List.mem_cons, List.not_mem_nil, or_false] at hl
          rcases hl with rfl | rfl <;> simp_all) rfl hu
        have h2 := boxes_isTile _ 2 256 (by omega) g.box u hs (by simp) (by
          intro l hl _
          simp only [List.mem_cons, List.not_mem_nil, or_false] at hl
          rcases hl with rfl | rfl <;> simp_all) rfl hu
        have h0 := boxes_other _ 0 (by
          intro l hl
          simp only [List.mem_cons, List.not_mem_nil, or_false] at hl
          rcases hl with rfl | rfl <;> decide) g.box u hu
        obtain ⟨s', e, h3⟩ := g.directJK_spec A B u st hvl h0 h1 h2
        exact ⟨s', e, trivial, h3⟩) s trivial
    refine ⟨s', e, ?_⟩
    rw [h, sum_boxes _ hs]
  · simp only [if_true]
    have hs : ∀ l ∈ ([⟨0, 32, false⟩, ⟨1, 64, false⟩] : List (Lp 3)), 0 < l.step := by
      intro l hl
      simp only [List.mem_cons, List.not_mem_nil, or_false] at hl
      rcases hl with rfl | rfl <;> simp
    obtain ⟨s', e, _, h⟩ := foldlM_acc (fun s : GSt R => s.out) (fun _ => True) (g.tileRij A B)
      (fun u => ∑ p ∈ pts u, g.point A B g.rView (0, 0) p)
      (boxes [⟨0, 32, false⟩, ⟨1, 64, false⟩] g.box) (by
        intro u hu st _
        have h1 := boxes_isTile _ 1 64 (by omega) g.box u hs (by simp) (by
          intro l hl _
          simp only [List.mem_cons, List.not_mem_nil, or_false] at hl
          rcases hl with rfl | rfl <;> simp_all) rfl hu
        have h0 := boxes_isTile _ 0 32 (by omega) g.box u hs (by simp) (by
          intro l hl _
          simp only [List.mem_cons, List.not_mem_nil, or_false] at hl
          rcases hl with rfl | rfl <;> simp_all) rfl hu
        have h2 := boxes_other _ 2 (by
          intro l hl
          simp only [List.mem_cons, List.not_mem_nil, or_false] at hl
          rcases hl with rfl | rfl <;> decide) g.box u hu
        obtain ⟨s', e, h3⟩ := g.tileRij_spec A B u st hvl hm h0 h1 h2
        exact ⟨s', e, trivial, h3⟩) s trivial
    refine ⟨s', e, ?_⟩
    rw [h, sum_boxes _ hs]

/-- The product of the whole matrices, element by element. -/
theorem Gemm.product_elem (g : Gemm) (A B : ℤ → R) {i j : ℤ} (hi0 : 0 ≤ i) (hi : i < g.I.val)
    (hj0 : 0 ≤ j) (hj : j < g.J.val) :
    (∑ p ∈ pts g.box, g.point A B g.rView (0, 0) p) (g.rView.flat i j) =
      ∑ k ∈ Ico 0 g.K.val, g.opA A i k * g.opB B k j := by
  rw [Finset.sum_apply, sum_pts_three]
  simp only [Gemm.box, Matrix.cons_val_zero, Matrix.cons_val_one, Matrix.cons_val, Gemm.point,
    sub_zero]
  rw [Finset.sum_eq_single i, Finset.sum_eq_single j]
  · refine Finset.sum_congr rfl fun k _ => ?_
    rw [if_pos rfl]
  · intro j' hj' hne
    rw [mem_Ico] at hj'
    refine Finset.sum_eq_zero fun k _ => ?_
    rw [if_neg]
    intro e
    exact hne (View.flat_inj (v := g.rView) ⟨hj0, hj⟩ ⟨hj'.1, hj'.2⟩ e).2.symm
  · intro h; exact absurd (mem_Ico.2 ⟨hj0, hj⟩) h
  · intro i' hi' hne
    refine Finset.sum_eq_zero fun j' hj' => Finset.sum_eq_zero fun k _ => ?_
    rw [mem_Ico] at hj'
    rw [if_neg]
    intro e
    exact hne (View.flat_inj (v := g.rView) ⟨hj0, hj⟩ ⟨hj'.1, hj'.2⟩ e).1.symm
  · intro h; exact absurd (mem_Ico.2 ⟨hi0, hi⟩) h

/-! ### The schedules -/

theorem gemmScheduleR_eq : applyAll (initNest 3) gemmScheduleR =
    some ([⟨0, 32, false⟩, ⟨1, 64, false⟩] ++ [⟨2, 256, false⟩] ++ regNest ++
      [⟨0, 1, true⟩, ⟨1, 1, true⟩, ⟨2, 1, true⟩]) := by decide +kernel

theorem gemmScheduleD_eq : applyAll gemmLoopsD gemmScheduleD =
    some ([⟨1, 64, false⟩, ⟨2, 256, false⟩] ++ [⟨0, 32, false⟩] ++ regNest ++
      [⟨1, 1, true⟩, ⟨2, 1, true⟩, ⟨0, 1, true⟩]) := by decide +kernel

theorem boxes_append {n : ℕ} (a b : List (Lp n)) (x : Box n) :
    boxes (a ++ b) x = (boxes a x).flatMap (boxes b) := by
  induction a generalizing x with
  | nil => simp [boxes]
  | cons l ls ih =>
    rw [List.cons_append, boxes, boxes]
    split
    · exact ih x
    · simp only [ih, List.flatMap_assoc]

/-! ### The final pass -/

/-- The bias is unidirectionally broadcastable to `I x J`. -/
def BiasOk (I J : ℤ) (dims : List ℤ) : Prop :=
  dims.length ≤ 2 ∧ List.Forall₂ (fun d n => d = 1 ∨ d = n) dims ([I, J].drop (2 - dims.length))

theorem biasIdx_in {I J i j : ℤ} {dims : List ℤ} (h : BiasOk I J dims)
    (hi0 : 0 ≤ i) (hi : i < I) (hj0 : 0 ≤ j) (hj : j < J) :
    Lower.InShape (biasIdx dims i j) dims := by
  obtain ⟨hl, hf⟩ := h
  unfold biasIdx
  match dims, hl, hf with
  | [], _, _ => exact Lower.inShape_nil
  | [d], _, hf =>
    simp only [List.length_cons, List.length_nil, zero_add, Nat.add_one_sub_one, List.drop_succ_cons,
      List.drop_zero, List.forall₂_cons, List.forall₂_nil_left_iff, and_true] at hf
    simp only [List.length_cons, List.length_nil, zero_add, Nat.add_one_sub_one,
      List.drop_succ_cons, List.drop_zero, List.zipWith_cons_cons, List.zipWith_nil_right]
    refine Lower.inShape_cons.2 ⟨?_, Lower.inShape_nil⟩
    split <;> omega
  | [d, e], _, hf =>
    simp only [List.length_cons, List.length_nil, zero_add, Nat.reduceAdd, Nat.sub_self,
      List.drop_zero, List.forall₂_cons, List.forall₂_nil_left_iff, and_true] at hf
    simp only [List.length_cons, List.length_nil, zero_add, Nat.reduceAdd, Nat.sub_self,
      List.drop_zero, List.zipWith_cons_cons, List.zipWith_nil_right]
    refine Lower.inShape_cons.2 ⟨?_, Lower.inShape_cons.2 ⟨?_, Lower.inShape_nil⟩⟩
    · split <;> omega
    · split <;> omega

/-- What the bias adds to an element. -/
def biasVal (β : R) (bias : Option (Lower.Mem R)) (i j : ℤ) : R :=
  match bias with
  | none => 0
  | some c => β * c.data (biasIdx c.shape i j)

theorem Gemm.finish_spec [DecidableEq R] (g : Gemm) (α β : R) (bias : Option (Lower.Mem R))
    (out : ℤ → R) (hb : ∀ c, bias = some c → BiasOk g.I.val g.J.val c.shape) :
    ∃ out', g.finish α β bias out = some out' ∧
      ∀ i j, 0 ≤ i → i < g.I.val → 0 ≤ j → j < g.J.val →
        out' (g.rView.flat i j) = α * out (g.rView.flat i j) + biasVal β bias i j := by
  unfold Gemm.finish
  by_cases h : α = 1 ∧ (β = 0 ∨ bias.isNone = true)
  · rw [if_pos h]
    refine ⟨out, rfl, ?_⟩
    intro i j _ _ _ _
    obtain ⟨h1, h2⟩ := h
    rw [h1, one_mul]
    cases bias with
    | none => simp [biasVal]
    | some c =>
      rcases h2 with h2 | h2
      · simp [biasVal, h2]
      · simp at h2
  · rw [if_neg h]
    obtain ⟨o, e, h1, _⟩ := rect_spec g.I.val g.J.val (fun i j => g.rView.flat i j)
      (fun i j x => α * x + biasVal β bias i j)
      (fun i j out => (g.rView.pos i j).bind fun p =>
          let res := if α = 1 then out p else α * out p
          (match bias with
            | none => some res
            | some c => (c.load (biasIdx c.shape i j)).map fun v =>
                res + (if β = 1 then v else β * v)).map fun v => Function.update out p v)
      (by
        intro i j hi0 hi hj0 hj st
        rw [View.pos_eq (v := g.rView) hi0 hi hj0 hj]
        simp only [Option.bind_some]
        have e1 : ∀ x : R, (if α = 1 then x else α * x) = α * x := by
          intro x; split
          · rename_i h; rw [h, one_mul]
          · rfl
        have e2 : ∀ x : R, (if β = 1 then x else β * x) = β * x := by
          intro x; split
          · rename_i h; rw [h, one_mul]
          · rfl
        cases bias with
        | none => simp [biasVal, e1]
        | some c =>
          have := biasIdx_in (hb c rfl) hi0 hi hj0 hj
          simp [biasVal, e1, e2, Lower.Mem.load, this])
      (by
        intro r c r' c' _ _ h1 h2 _ _ h3 h4 e
        exact View.flat_inj (v := g.rView) ⟨h1, h2⟩ ⟨h3, h4⟩ e) out
    exact ⟨o, e, h1⟩

theorem Gemm.tiled_spec [DecidableEq R] (g : Gemm) (α β : R) (bias : Option (Lower.Mem R))
    (A B : ℤ → R) (s : GSt R) (hvl : ∃ e, g.archVL = 2 ^ e)
    (hb : ∀ c, bias = some c → BiasOk g.I.val g.J.val c.shape) :
    ∃ out, g.tiled α β bias A B s = some out ∧
      ∀ i j, 0 ≤ i → i < g.I.val → 0 ≤ j → j < g.J.val →
        out (g.rView.flat i j) =
          α * (∑ k ∈ Ico 0 g.K.val, g.opA A i k * g.opB B k j) + biasVal β bias i j := by
  unfold Gemm.tiled
  obtain ⟨s1, e1, h1⟩ := g.product_spec A B { s with out := fun _ => 0 } hvl
  rw [e1, Option.bind_some]
  obtain ⟨o, e2, h2⟩ := g.finish_spec α β bias s1.out hb
  refine ⟨o, e2, ?_⟩
  intro i j hi0 hi hj0 hj
  rw [h2 i j hi0 hi hj0 hj, h1]
  simp only [Pi.add_apply]
  rw [g.product_elem A B hi0 hi hj0 hj, zero_add]

/-! ### The generic variant -/

theorem Gemm.generic_spec (g : Gemm) (α β : R) (bias : Option (Lower.Mem R)) (A B out : ℤ → R)
    (hb : ∀ c, bias = some c → BiasOk g.I.val g.J.val c.shape) :
    ∃ out', g.generic α β bias A B out = some out' ∧
      ∀ i j, 0 ≤ i → i < g.I.val → 0 ≤ j → j < g.J.val →
        out' (g.rView.flat i j) =
          α * (∑ k ∈ Ico 0 g.K.val, g.opA A i k * g.opB B k j) + biasVal β bias i j := by
  unfold Gemm.generic
  obtain ⟨o, e, h1, _⟩ := rect_spec g.I.val g.J.val (fun i j => g.rView.flat i j)
    (fun i j _ => α * (∑ k ∈ Ico 0 g.K.val, g.opA A i k * g.opB B k j) + biasVal β bias i j)
    (fun i j out =>
      (forLoop 0 g.K.val 1 (fun k (red : R) =>
        (if g.aT then g.aView.pos k i else g.aView.pos i k).bind fun pa =>
        (if g.bT then g.bView.pos j k else g.bView.pos k j).map fun pb =>
          A pa * B pb + red) 0).bind fun red =>
      (match bias with
        | none => some (α * red)
        | some c => (c.load (biasIdx c.shape i j)).map fun v => α * red + β * v).bind fun v =>
      (g.rView.pos i j).map fun p => Function.update out p v)
    (by
      intro i j hi0 hi hj0 hj st
      obtain ⟨red, e1, _, h1⟩ := forLoop_acc (fun r : R => r) (fun _ => True) 0 g.K.val 1
        (fun k (red : R) =>
          (if g.aT then g.aView.pos k i else g.aView.pos i k).bind fun pa =>
          (if g.bT then g.bView.pos j k else g.bView.pos k j).map fun pb => A pa * B pb + red)
        (fun k => g.opA A i k * g.opB B k j) (by
          intro k hk red _
          obtain ⟨q, rfl, hlt⟩ := (mem_starts (by omega)).1 hk
          push_cast at hlt
          generalize hx : (0 : ℤ) + (q : ℤ) * ((1 : ℕ) : ℤ) = k
          have hk0 : 0 ≤ k := by omega
          have hk1 : k < g.K.val := by omega
          refine ⟨red + g.opA A i k * g.opB B k j, ?_, trivial, rfl⟩
          have ea : (if g.aT then g.aView.pos k i else g.aView.pos i k) =
              some (if g.aT then k * g.I.val + i else i * g.K.val + k) := by
            unfold Gemm.aView
            cases g.aT
            · simp only [Bool.false_eq_true, if_false]
              rw [View.pos_eq hi0 hi hk0 hk1]; simp [View.flat]
            · simp only [if_true]
              rw [View.pos_eq hk0 hk1 hi0 hi]; simp [View.flat]
          have eb : (if g.bT then g.bView.pos j k else g.bView.pos k j) =
              some (if g.bT then j * g.K.val + k else k * g.J.val + j) := by
            unfold Gemm.bView
            cases g.bT
            · simp only [Bool.false_eq_true, if_false]
              rw [View.pos_eq hk0 hk1 hj0 hj]; simp [View.flat]
            · simp only [if_true]
              rw [View.pos_eq hj0 hj hk0 hk1]; simp [View.flat]
          rw [ea, eb, add_comm red]
          rfl) 0 trivial
      rw [starts_one_sum, zero_add] at h1
      rw [e1, Option.bind_some, h1]
      cases bias with
      | none =>
        simp only [Option.bind_some]
        rw [View.pos_eq (v := g.rView) hi0 hi hj0 hj]
        simp [biasVal]
      | some c =>
        have := biasIdx_in (hb c rfl) hi0 hi hj0 hj
        simp only [Lower.Mem.load, this, if_true, Option.map_some, Option.bind_some]
        rw [View.pos_eq (v := g.rView) hi0 hi hj0 hj]
        simp [biasVal])
    (by
      intro r c r' c' _ _ h1 h2 _ _ h3 h4 e
      exact View.flat_inj (v := g.rView) ⟨h1, h2⟩ ⟨h3, h4⟩ e) out
  exact ⟨o, e, h1⟩

end

end Verif.Krnl
