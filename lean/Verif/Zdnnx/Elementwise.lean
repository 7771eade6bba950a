import Verif.Zdnnx.Sound
import Mathlib.Tactic.Linarith

/-! The elementwise operations and softmax. -/

namespace Verif.Zdnnx

/-! ### Tiles that `zdnnx_is_full_tile` takes for full ones -/

/-- The tile is full in every dimension according to the program, and what the program writes for
it stays in the buffer of the tensor. -/
structure FullOK (z : ZTensor) (ts ie : Quad) : Prop where
  a2 : (tileShapeOf z.shape ts).e2 % 32 = 0
  a1 : (tileShapeOf z.shape ts).e1 % 64 = 0
  d : descOf z.layout (tileShapeOf z.shape ts) = tileShapeOf z.shape ts
  t4 : (tileShapeOf z.shape ts).e4 = 1
  i4 : ie.e4 + 2 ≤ z.shape.e4
  t3 : (tileShapeOf z.shape ts).e3 ≤ z.shape.e3
  t2 : cdiv (tileShapeOf z.shape ts).e2 32 ≤ cdiv z.shape.e2 32
  t1 : cdiv (tileShapeOf z.shape ts).e1 64 ≤ cdiv z.shape.e1 64

theorem Ax.over {u s t d n ie l : ℕ} (h : Ax u s t d n ie) (ha : t % u = 0)
    (hc : cdiv t u ≤ cdiv s u) (hl : l < t) : (ie * t + l) / u + 2 ≤ 2 * cdiv s u := by
  obtain ⟨c, rfl⟩ := Nat.dvd_of_mod_eq_zero ha
  rw [cdiv_mul h.u0] at hc
  have ho := h.off_lt
  have e : ie * (u * c) = u * (ie * c) := by ring
  rw [e] at ho ⊢
  rw [← lt_cdiv_iff h.u0] at ho
  have hd : l / u < c := by rw [Nat.div_lt_iff_lt_mul h.u0, Nat.mul_comm]; exact hl
  rw [Nat.mul_add_div h.u0]
  omega

theorem page_over {C1 C2 s3 s4 p6 p5 p4 p3 : ℕ} (h6 : p6 + 2 ≤ s4) (h5 : p5 + 2 ≤ 2 * C1)
    (h4 : p4 + 2 ≤ 2 * s3) (h3 : p3 + 2 ≤ 2 * C2) :
    p3 + C2 * (p4 + s3 * (p5 + C1 * p6)) + 2 ≤ C2 * (s3 * (C1 * s4)) := by
  have x : p5 + C1 * p6 + 2 ≤ C1 * s4 := by
    have := Nat.mul_le_mul_left C1 h6
    rw [Nat.mul_add] at this
    omega
  have y : p4 + s3 * (p5 + C1 * p6) + 2 ≤ s3 * (C1 * s4) := by
    have := Nat.mul_le_mul_left s3 x
    rw [Nat.mul_add] at this
    omega
  have := Nat.mul_le_mul_left C2 y
  rw [Nat.mul_add] at this
  omega

theorem FullOK.cell_lt {z : ZTensor} {ts ie l : Quad} (h : Axes z ts ie) (hk : FullOK z ts ie)
    (hl : Inside l (tileShapeOf z.shape ts)) :
    addr z.shape (glob (tileShapeOf z.shape ts) ie l) < cells z.shape := by
  obtain ⟨l4, l3, l2, l1⟩ := hl
  have o1 := h.a1.over hk.a1 hk.t1 l1
  have o2 := h.a2.over hk.a2 hk.t2 l2
  have o3 := h.a3.over (Nat.mod_one _) (by rw [cdiv_one_right, cdiv_one_right]; exact hk.t3) l3
  rw [Nat.div_one, cdiv_one_right] at o3
  have o4 : ie.e4 * (tileShapeOf z.shape ts).e4 + l.e4 + 2 ≤ z.shape.e4 := by
    have := hk.i4
    rw [hk.t4] at l4 ⊢
    omega
  have := page_over o4 o1 o3 o2
  have hi := inPage_lt (glob (tileShapeOf z.shape ts) ie l)
  rw [addr_eq]
  unfold cells pageOf pageAt
  simp only [glob] at hi ⊢
  omega

theorem cellIdx_inside {T : Quad} (hp : Positive T) (h2 : T.e2 % 32 = 0) (h1 : T.e1 % 64 = 0)
    {a : ℕ} (ha : a < cells T) : Inside (cellIdx T a) T := by
  have hpad := padded_cellIdx hp a
  refine ⟨cellIdx_e4_lt hp ha, hpad.1, ?_, ?_⟩
  · have := hpad.2.1
    rw [lt_cdiv_iff (by omega)] at this
    omega
  · have := hpad.2.2
    rw [lt_cdiv_iff (by omega)] at this
    omega

/-- A step of an operation that computes every cell from the same cell of its inputs. -/
theorem cellwise_sound {α : Type} {z : ZTensor} {ts ie : Quad} (h : Axes z ts ie) (hf : Fits z)
    (hn : isFullTile (splitOf z ts) ie = false ∨ FullOK z ts ie) {own full y : Buf α}
    {tval : Quad → α} {g : ℕ → α}
    (hc : Computed (tileDescAt (splitOf z ts) ie) tval (outputTile (splitOf z ts) ie full own) y)
    (hv : ∀ l, Inside l (tileDescAt (splitOf z ts) ie) →
      tval l = g (addr z.shape (glob (tileShapeOf z.shape ts) ie l))) :
    StepSound z.shape (tileShapeOf z.shape ts) (fun i => g (addr z.shape i)) ie full
      (storeTile (splitOf z ts) ie y full) := by
  cases hfull : isFullTile (splitOf z ts) ie
  · have hT := tileDescAt_true h hf hfull
    rw [hT] at hc hv
    exact storeTile_sound h hf hfull hc hv
  · have hk : FullOK z ts ie := by
      rcases hn with hn | hn
      · rw [hfull] at hn; cases hn
      · exact hn
    have hT : tileDescAt (splitOf z ts) ie = tileShapeOf z.shape ts := by
      rw [tileDescAt_split, hfull]; exact hk.d
    have hs := storeTile_cell h hf (own := own) (full := full) (y := y) hc.2
    rw [hT] at hs hc hv
    set t := tileShapeOf z.shape ts with ht
    have hp : Positive t := ⟨h.a4.t0, h.a3.t0, h.a2.t0, h.a1.t0⟩
    have hya : ∀ a, a < cells t → y a = g (cellMap z.shape t ie t a) := by
      intro a ha
      have hl := cellIdx_inside hp hk.a2 hk.a1 ha
      have := hc.1 _ hl
      unfold elem at this
      rw [addr_cellIdx] at this
      rw [this, hv _ hl]
      rfl
    refine ⟨?_, ?_, ?_⟩
    · intro i hi hd
      obtain ⟨_, hg⟩ := within_inside h hi hd
      have hl : Inside (within t i) t :=
        ⟨Nat.mod_lt _ hp.1, Nat.mod_lt _ hp.2.1, Nat.mod_lt _ hp.2.2.1, Nat.mod_lt _ hp.2.2.2⟩
      have hm : cellMap z.shape t ie t (addr t (within t i)) = addr z.shape i := by
        unfold cellMap
        rw [cellIdx_addr (padded_of_inside hl), hg]
      obtain ⟨a, ha, hma, hy⟩ := (hs (addr z.shape i)).2 ⟨_, addr_inside_lt hl, hm⟩
      unfold elem
      rw [hy, hya a ha, hma]
    · intro i hi
      by_cases hex : ∃ a, a < cells t ∧ cellMap z.shape t ie t a = addr z.shape i
      · obtain ⟨a, ha, hma, hy⟩ := (hs (addr z.shape i)).2 hex
        right
        unfold elem
        rw [hy, hya a ha, hma]
      · push Not at hex
        exact Or.inl ((hs (addr z.shape i)).1 hex)
    · intro x hx
      apply (hs x).1
      intro a ha hm
      have := hk.cell_lt h (cellIdx_inside hp hk.a2 hk.a1 ha)
      unfold cellMap at hm
      rw [← hm] at hx
      exact absurd this (not_lt.2 hx)

/-! ### The sizes that are chosen -/

theorem cdiv_le_self {a b : ℕ} (hb : 0 < b) : cdiv a b ≤ a := by
  rw [cdiv_le_iff hb]; exact Nat.le_mul_of_pos_left a hb

theorem shrinkOne_le {inc : Bool} {mx total v : ℕ} (h0 : 0 < mx) (ht : 0 < total) :
    shrinkOne inc mx total v ≤ v := by
  unfold shrinkOne
  split
  · exact le_rfl
  · split
    · exact le_rfl
    · exact cdiv_le_self (cdiv_pos ht h0)

theorem shrink_le {mx : ℕ} (h0 : 0 < mx) (inc : Include) (t : Quad) :
    (shrink mx inc t).e4 ≤ t.e4 ∧ (shrink mx inc t).e3 ≤ t.e3 ∧ (shrink mx inc t).e2 ≤ t.e2 ∧
      (shrink mx inc t).e1 ≤ t.e1 := by
  unfold shrink
  dsimp only
  split
  · exact ⟨le_rfl, le_rfl, le_rfl, le_rfl⟩
  · rename_i v1
    have g1 := shrinkOne_le (inc := inc.e4) (v := t.e4) h0 (show 0 < volume t by omega)
    split
    · exact ⟨g1, le_rfl, le_rfl, le_rfl⟩
    · rename_i v2
      have g2 := shrinkOne_le (inc := inc.e1) (v := t.e1) h0 (lt_trans h0 (not_le.1 v2))
      split
      · exact ⟨g1, le_rfl, le_rfl, g2⟩
      · rename_i v3
        have g3 := shrinkOne_le (inc := inc.e3) (v := t.e3) h0 (lt_trans h0 (not_le.1 v3))
        split
        · exact ⟨g1, g3, le_rfl, g2⟩
        · rename_i v4
          have g4 := shrinkOne_le (inc := inc.e2) (v := t.e2) h0 (lt_trans h0 (not_le.1 v4))
          exact ⟨g1, g3, g4, g2⟩

theorem clampE4_le {lim : Limits} {inc : Include} {s t : Quad} (h : Below t s) :
    Below (clampE4 lim inc s t) s := by
  obtain ⟨h4, h3, h2, h1⟩ := h
  unfold clampE4
  split
  · exact ⟨by dsimp only; omega, h3, h2, h1⟩
  · exact ⟨h4, h3, h2, h1⟩

theorem clampE1_le {lim : Limits} {inc : Include} {s t : Quad} (hp : Positive s) (h : Below t s) :
    Below (clampE1 lim inc s t) s := by
  obtain ⟨h4, h3, h2, h1⟩ := h
  have := hp.1
  unfold clampE1
  split
  · refine ⟨?_, h3, h2, by dsimp only; omega⟩
    dsimp only; split <;> omega
  · exact ⟨h4, h3, h2, h1⟩

theorem clampE3_le {lim : Limits} {inc : Include} {s t : Quad} (hp : Positive s) (h : Below t s) :
    Below (clampE3 lim inc s t) s := by
  obtain ⟨h4, h3, h2, h1⟩ := h
  have := hp.1
  unfold clampE3
  split
  · refine ⟨?_, by dsimp only; omega, h2, ?_⟩
    · dsimp only; split <;> omega
    · dsimp only; split <;> omega
  · exact ⟨h4, h3, h2, h1⟩

theorem clampE2_le {lim : Limits} {inc : Include} {s t : Quad} (hp : Positive s) (h : Below t s) :
    Below (clampE2 lim inc s t) s := by
  obtain ⟨h4, h3, h2, h1⟩ := h
  have := hp.1
  have := hp.2.1
  unfold clampE2
  split
  · refine ⟨?_, ?_, by dsimp only; omega, ?_⟩
    · dsimp only; split <;> omega
    · dsimp only; split <;> omega
    · dsimp only; split <;> omega
  · exact ⟨h4, h3, h2, h1⟩

theorem clampAll_le (lim : Limits) (inc : Include) {s : Quad} (hp : Positive s) :
    Below (clampAll lim inc s) s :=
  clampE2_le hp (clampE3_le hp (clampE1_le hp (clampE4_le ⟨le_rfl, le_rfl, le_rfl, le_rfl⟩)))

/-- With a tile of at least two along `e4`, no other limit of a dimension was exceeded. -/
theorem clampAll_e4 (lim : Limits) {s : Quad} (h : 2 ≤ (clampAll lim includeAll s).e4) :
    (clampAll lim includeAll s).e3 = s.e3 ∧ (clampAll lim includeAll s).e2 = s.e2 ∧
      (clampAll lim includeAll s).e1 = s.e1 := by
  have f2 : clampAll lim includeAll s =
      clampE3 lim includeAll s (clampE1 lim includeAll s (clampE4 lim includeAll s s)) := by
    unfold clampAll at h ⊢
    unfold clampE2 at h ⊢
    split at h
    · simp [includeAll] at h
    · rename_i hc
      rw [if_neg hc]
  rw [f2] at h ⊢
  have f3 : clampE3 lim includeAll s (clampE1 lim includeAll s (clampE4 lim includeAll s s)) =
      clampE1 lim includeAll s (clampE4 lim includeAll s s) := by
    unfold clampE3 at h ⊢
    split at h
    · simp [includeAll] at h
    · rename_i hc
      rw [if_neg hc]
  rw [f3] at h ⊢
  have f1 : clampE1 lim includeAll s (clampE4 lim includeAll s s) =
      clampE4 lim includeAll s s := by
    unfold clampE1 at h ⊢
    split at h
    · simp [includeAll] at h
    · rename_i hc
      rw [if_neg hc]
  rw [f1]
  unfold clampE4
  split
  · exact ⟨rfl, rfl, rfl⟩
  · exact ⟨rfl, rfl, rfl⟩

theorem shrink_step {v k R mx : ℕ} (hk : 0 < k) (hR : v * R ≤ mx * k)
    (h2 : 2 ≤ cdiv v k) (hR0 : 0 < R) : cdiv v k * R < 2 * mx := by
  have h1 : cdiv v k - 1 < cdiv v k := by omega
  rw [lt_cdiv_iff hk] at h1
  have hkv : k < v := by
    have : 1 < cdiv v k := h2
    rw [lt_cdiv_iff hk, Nat.mul_one] at this
    exact this
  have h3 : k * cdiv v k < 2 * v := by
    have : k * (cdiv v k - 1) + k = k * cdiv v k := by
      rw [← Nat.mul_succ]; congr 1; omega
    omega
  have h4 : k * cdiv v k * R < 2 * v * R := Nat.mul_lt_mul_of_pos_right h3 hR0
  have h5 : k * (cdiv v k * R) < k * (2 * mx) := by nlinarith
  exact Nat.lt_of_mul_lt_mul_left h5

theorem cdiv_two {v : ℕ} (h : 2 ≤ v) : 3 * cdiv v 2 ≤ 2 * v := by unfold cdiv; omega

theorem cdiv_eq_two {a b : ℕ} (hb : 0 < b) (h1 : b < a) (h2 : a ≤ 2 * b) : cdiv a b = 2 := by
  apply le_antisymm
  · rw [cdiv_le_iff hb]; omega
  · show 1 < cdiv a b
    rw [lt_cdiv_iff hb]; omega

theorem shrinkOne_true {mx total v : ℕ} (h : v ≠ 1) :
    shrinkOne true mx total v = cdiv v (cdiv total mx) := by
  unfold shrinkOne
  rw [if_neg (by simp), if_neg h]

/-- With a tile of at least two along `e4`, some other dimension is not split. -/
theorem shrink_e4 {mx : ℕ} (h0 : 0 < mx) {t : Quad} (hp : Positive t)
    (h : 2 ≤ (shrink mx includeAll t).e4) :
    (shrink mx includeAll t).e1 = t.e1 ∨ (shrink mx includeAll t).e3 = t.e3 ∨
      (shrink mx includeAll t).e2 = t.e2 := by
  obtain ⟨p4, p3, p2, p1⟩ := hp
  obtain ⟨t4, t3, t2, t1⟩ := t
  dsimp only at p4 p3 p2 p1
  revert h
  unfold shrink includeAll
  dsimp only
  by_cases v1 : volume ⟨t4, t3, t2, t1⟩ ≤ mx
  · rw [if_pos v1]; intro _; exact Or.inl rfl
  rw [if_neg v1]
  set a4 := shrinkOne true mx (volume ⟨t4, t3, t2, t1⟩) t4 with ha4
  by_cases v2 : volume ⟨a4, t3, t2, t1⟩ ≤ mx
  · rw [if_pos v2]; intro _; exact Or.inl rfl
  rw [if_neg v2]
  set a1 := shrinkOne true mx (volume ⟨a4, t3, t2, t1⟩) t1 with ha1
  by_cases v3 : volume ⟨a4, t3, t2, a1⟩ ≤ mx
  · rw [if_pos v3]; intro _; exact Or.inr (Or.inl rfl)
  rw [if_neg v3]
  set a3 := shrinkOne true mx (volume ⟨a4, t3, t2, a1⟩) t3 with ha3
  by_cases v4 : volume ⟨a4, a3, t2, a1⟩ ≤ mx
  · rw [if_pos v4]; intro _; exact Or.inr (Or.inr rfl)
  rw [if_neg v4]
  dsimp only
  intro h
  by_cases e1 : t1 = 1
  · left; rw [ha1, e1]; unfold shrinkOne; simp
  by_cases e3 : t3 = 1
  · right; left; rw [ha3, e3]; unfold shrinkOne; simp
  exfalso
  have e4 : t4 ≠ 1 := by
    intro e; rw [ha4, e] at h; unfold shrinkOne at h; simp at h
  rw [shrinkOne_true e4] at ha4
  rw [shrinkOne_true e1] at ha1
  rw [shrinkOne_true e3] at ha3
  unfold volume at *
  dsimp only at *
  push Not at v1 v2 v3 v4
  have hk : 0 < cdiv (t4 * t3 * t2 * t1) mx := cdiv_pos (by omega) h0
  have hR : 0 < t3 * t2 * t1 := by positivity
  have s1 : a4 * (t3 * t2 * t1) < 2 * mx := by
    rw [ha4]
    apply shrink_step hk _ (by rw [← ha4]; exact h) hR
    have := le_mul_cdiv (a := t4 * t3 * t2 * t1) h0
    calc t4 * (t3 * t2 * t1) = t4 * t3 * t2 * t1 := by ring
      _ ≤ _ := this
  have k1 : cdiv (a4 * t3 * t2 * t1) mx = 2 := by
    apply cdiv_eq_two h0 v2
    have : a4 * t3 * t2 * t1 = a4 * (t3 * t2 * t1) := by ring
    omega
  rw [k1] at ha1
  have c1 : 3 * a1 ≤ 2 * t1 := by rw [ha1]; exact cdiv_two (by omega)
  have s2 : 3 * (a4 * t3 * t2 * a1) ≤ 2 * (a4 * (t3 * t2 * t1)) := by
    calc 3 * (a4 * t3 * t2 * a1) = a4 * t3 * t2 * (3 * a1) := by ring
      _ ≤ a4 * t3 * t2 * (2 * t1) := Nat.mul_le_mul_left _ c1
      _ = _ := by ring
  have k2 : cdiv (a4 * t3 * t2 * a1) mx = 2 := cdiv_eq_two h0 v3 (by omega)
  rw [k2] at ha3
  have c3 : 3 * a3 ≤ 2 * t3 := by rw [ha3]; exact cdiv_two (by omega)
  have s3 : 3 * (a4 * a3 * t2 * a1) ≤ 2 * (a4 * t3 * t2 * a1) := by
    calc 3 * (a4 * a3 * t2 * a1) = a4 * t2 * a1 * (3 * a3) := by ring
      _ ≤ a4 * t2 * a1 * (2 * t3) := Nat.mul_le_mul_left _ c3
      _ = _ := by ring
  omega

/-- The sizes for an elementwise operation. -/
theorem select_all {lim : Limits} {s ts : Quad} (hp : Positive s)
    (h : selectTileSizes lim includeAll s noSizes = some ts) :
    (ts.e4 ≤ s.e4 ∧ ts.e3 ≤ s.e3 ∧ ts.e2 ≤ s.e2 ∧ ts.e1 ≤ s.e1) ∧
    (ts.e4 = 0 ∨ ts.e4 = 1 ∨ ts.e4 = s.e4 ∨ ts.e1 = s.e1 ∨ ts.e3 = s.e3 ∨ ts.e2 = s.e2) := by
  unfold selectTileSizes at h
  dsimp only at h
  set c := clampAll lim includeAll s with hc
  have cle := clampAll_le lim includeAll hp
  rw [← hc] at cle
  unfold Below at cle
  split at h
  · cases h
  · rename_i hz
    by_cases ht : shrink lim.size includeAll c = s
    · rw [if_pos ht] at h
      simp only [Option.some.injEq] at h
      subst h
      exact ⟨⟨Nat.zero_le _, Nat.zero_le _, Nat.zero_le _, Nat.zero_le _⟩, Or.inl rfl⟩
    · rw [if_neg ht] at h
      simp only [includeAll, if_true, Option.some.injEq] at h
      have hts : ts = shrink lim.size includeAll c := h.symm
      -- what the loop does with a limit of zero
      by_cases hm : 0 < lim.size
      · have sle := shrink_le hm includeAll c
        rw [← hts] at sle
        refine ⟨by omega, ?_⟩
        by_cases h2 : 2 ≤ ts.e4
        · have c2 : 2 ≤ c.e4 := by omega
          have ce := clampAll_e4 lim (s := s) (by rw [← hc]; exact c2)
          rw [← hc] at ce
          have cp : Positive c := by
            obtain ⟨p4, p3, p2, p1⟩ := hp
            refine ⟨by omega, by omega, by omega, by omega⟩
          have := shrink_e4 hm cp (by rw [← hts]; exact h2)
          rw [← hts, ce.1, ce.2.1, ce.2.2] at this
          tauto
        · omega
      · have hm0 : lim.size = 0 := by omega
        -- the loop has nothing to do
        by_cases hv : volume c = 0
        · have : shrink lim.size includeAll c = c := by
            unfold shrink; rw [if_pos (by omega)]
          rw [this] at hts
          subst hts
          refine ⟨cle, ?_⟩
          by_cases h2 : 2 ≤ c.e4
          · have ce := clampAll_e4 lim (s := s) (by rw [← hc]; exact h2)
            rw [← hc] at ce
            tauto
          · omega
        · have hall : c.e4 = 1 ∧ c.e1 = 1 ∧ c.e3 = 1 ∧ c.e2 = 1 := by
            by_contra hno
            apply hz
            refine ⟨hm0, by omega, ?_⟩
            simp only [includeAll, true_and]
            tauto
          obtain ⟨c4, c1, c3, c2⟩ := hall
          have e : c = ⟨1, 1, 1, 1⟩ := by
            obtain ⟨x4, x3, x2, x1⟩ := c
            simp only at c4 c1 c3 c2
            subst c4 c1 c3 c2
            rfl
          have : shrink lim.size includeAll c = ⟨1, 1, 1, 1⟩ := by
            rw [e, hm0]; rfl
          rw [this] at hts
          subst hts
          obtain ⟨p4, p3, p2, p1⟩ := hp
          exact ⟨⟨p4, p3, p2, p1⟩, Or.inr (Or.inl rfl)⟩

/-- A dimension that is not split is never taken for a full one. -/
theorem fullAlong_whole {s ie : ℕ} (hs : 0 < s) (h : ie < cdiv s s) :
    fullAlong ie (cdiv s s) s (s - s * (cdiv s s - 1)) = false := by
  rw [cdiv_self hs] at h ⊢
  have : ie = 0 := by omega
  subst this
  unfold fullAlong
  simp

theorem isFullTile_whole {z : ZTensor} {ts ie : Quad} (h : Axes z ts ie)
    (hw : (tileShapeOf z.shape ts).e4 = z.shape.e4 ∨ (tileShapeOf z.shape ts).e3 = z.shape.e3 ∨
      (tileShapeOf z.shape ts).e2 = z.shape.e2 ∨ (tileShapeOf z.shape ts).e1 = z.shape.e1) :
    isFullTile (splitOf z ts) ie = false := by
  have key : ∀ u s t d n i, Ax u s t d n i → t = s → fullAlong i n t (s - t * (n - 1)) = false := by
    intro u s t d n i hx e
    subst e
    have := hx.lt
    rw [hx.n_eq] at this ⊢
    exact fullAlong_whole hx.s0 this
  have e : isFullTile (splitOf z ts) ie =
      (fullAlong ie.e4 (splitOf z ts).numTiles.e4 (tileShapeOf z.shape ts).e4
        (z.shape.e4 - (tileShapeOf z.shape ts).e4 * ((splitOf z ts).numTiles.e4 - 1)) &&
      fullAlong ie.e3 (splitOf z ts).numTiles.e3 (tileShapeOf z.shape ts).e3
        (z.shape.e3 - (tileShapeOf z.shape ts).e3 * ((splitOf z ts).numTiles.e3 - 1)) &&
      fullAlong ie.e2 (splitOf z ts).numTiles.e2 (tileShapeOf z.shape ts).e2
        (z.shape.e2 - (tileShapeOf z.shape ts).e2 * ((splitOf z ts).numTiles.e2 - 1)) &&
      fullAlong ie.e1 (splitOf z ts).numTiles.e1 (tileShapeOf z.shape ts).e1
        (z.shape.e1 - (tileShapeOf z.shape ts).e1 * ((splitOf z ts).numTiles.e1 - 1))) := rfl
  rw [e]
  rcases hw with hw | hw | hw | hw
  · rw [key _ _ _ _ _ _ h.a4 hw]; simp
  · rw [key _ _ _ _ _ _ h.a3 hw]; simp
  · rw [key _ _ _ _ _ _ h.a2 hw]; simp
  · rw [key _ _ _ _ _ _ h.a1 hw]; simp

theorem innerTile_page {u s z : ℕ} (hu : 0 < u) (hz : z ≤ s) :
    cdiv (innerTile u s z) u ≤ cdiv s u := by
  unfold innerTile
  split
  · exact le_rfl
  · split
    · rw [Nat.mul_comm, cdiv_mul hu]; exact cdiv_mono hu hz
    · exact cdiv_mono hu hz

theorem innerTile_self {u s : ℕ} : innerTile u s s = s := by
  unfold innerTile
  split
  · rfl
  · rw [if_neg (by simp)]

theorem innerTile_one {u z : ℕ} (h : z ≤ 1) : innerTile u 1 z = 1 := by
  unfold innerTile
  split
  · rfl
  · have : z = 1 := by omega
    subst this
    rw [if_neg (by simp)]

theorem elementwise_full {z : ZTensor} {ts ie : Quad} (h : Axes z ts ie)
    (hb : ts.e4 ≤ z.shape.e4 ∧ ts.e3 ≤ z.shape.e3 ∧ ts.e2 ≤ z.shape.e2 ∧ ts.e1 ≤ z.shape.e1)
    (hf : Fits z)
    (hk : ts.e4 = 0 ∨ ts.e4 = 1 ∨ ts.e4 = z.shape.e4 ∨ ts.e1 = z.shape.e1 ∨
      ts.e3 = z.shape.e3 ∨ ts.e2 = z.shape.e2) :
    isFullTile (splitOf z ts) ie = false ∨ FullOK z ts ie := by
  by_cases hw : (tileShapeOf z.shape ts).e4 = z.shape.e4 ∨
      (tileShapeOf z.shape ts).e3 = z.shape.e3 ∨
      (tileShapeOf z.shape ts).e2 = z.shape.e2 ∨ (tileShapeOf z.shape ts).e1 = z.shape.e1
  · exact Or.inl (isFullTile_whole h hw)
  cases hfull : isFullTile (splitOf z ts) ie
  · exact Or.inl rfl
  right
  push Not at hw
  obtain ⟨w4, w3, w2, w1⟩ := hw
  have n1 : z.shape.e4 ≠ 1 := by
    intro e; apply w4
    show outerTile _ _ = _
    rw [outerTile_eq, e]; exact innerTile_one (by omega)
  have hts : ts.e4 = 1 := by
    rcases hk with e | e | e | e | e | e
    · exact absurd (by show outerTile _ _ = _; rw [outerTile_eq, e]; rfl) w4
    · exact e
    · exact absurd (by show outerTile _ _ = _; rw [outerTile_eq, e]; exact innerTile_self) w4
    · exact absurd (by show innerTile _ _ _ = _; rw [e]; exact innerTile_self) w1
    · exact absurd (by show outerTile _ _ = _; rw [outerTile_eq, e]; exact innerTile_self) w3
    · exact absurd (by show innerTile _ _ _ = _; rw [e]; exact innerTile_self) w2
  have t4 : (tileShapeOf z.shape ts).e4 = 1 := by
    show outerTile _ _ = _
    rw [hts]; rfl
  have hd := desc_cases z.layout z.shape (tileShapeOf z.shape ts) hf
  have d3 : z.shape.e3 ≠ 1 := by
    intro e; apply w3
    show outerTile _ _ = _
    rw [outerTile_eq, e]; exact innerTile_one (by omega)
  have d2 : z.shape.e2 ≠ 1 := by
    intro e; apply w2
    show innerTile _ _ _ = _
    rw [e]; exact innerTile_one (by omega)
  have d1 : z.shape.e1 ≠ 1 := by
    intro e; apply w1
    show innerTile _ _ _ = _
    rw [e]; exact innerTile_one (by omega)
  refine ⟨h.a2.al.resolve_right w2, h.a1.al.resolve_right w1, ?_, t4, ?_, ?_,
    innerTile_page (by omega) hb.2.2.1, innerTile_page (by omega) hb.2.2.2⟩
  · have q4 : (descOf z.layout (tileShapeOf z.shape ts)).e4 = (tileShapeOf z.shape ts).e4 := by
      rcases hd.1 with e | e
      · exact e
      · exact absurd e.2 n1
    have q3 : (descOf z.layout (tileShapeOf z.shape ts)).e3 = (tileShapeOf z.shape ts).e3 := by
      rcases hd.2.1 with e | e
      · exact e
      · exact absurd e.2 d3
    have q2 : (descOf z.layout (tileShapeOf z.shape ts)).e2 = (tileShapeOf z.shape ts).e2 := by
      rcases hd.2.2.1 with e | e
      · exact e
      · exact absurd e.2 d2
    have q1 : (descOf z.layout (tileShapeOf z.shape ts)).e1 = (tileShapeOf z.shape ts).e1 := by
      rcases hd.2.2.2 with e | e
      · exact e
      · exact absurd e.2 d1
    generalize descOf z.layout (tileShapeOf z.shape ts) = q at *
    generalize tileShapeOf z.shape ts = q' at *
    obtain ⟨a, b, c, d⟩ := q
    obtain ⟨a', b', c', d'⟩ := q'
    simp only at q4 q3 q2 q1
    subst q4 q3 q2 q1
    rfl
  · have hl := h.a4.lt
    have hn := h.a4.n_eq
    rw [t4, cdiv_one_right] at hn
    have hfa : fullAlong ie.e4 (splitOf z ts).numTiles.e4 (tileShapeOf z.shape ts).e4
        (z.shape.e4 - (tileShapeOf z.shape ts).e4 * ((splitOf z ts).numTiles.e4 - 1)) = true := by
      unfold isFullTile at hfull
      simp only [Bool.and_eq_true] at hfull
      exact hfull.1.1.1
    rw [t4, hn] at hfa
    rw [hn] at hl
    have hp := h.a4.s0
    by_contra hlt
    have : ie.e4 = z.shape.e4 - 1 := by omega
    unfold fullAlong at hfa
    rw [if_pos this] at hfa
    have e : z.shape.e4 - 1 * (z.shape.e4 - 1) = 1 := by omega
    rw [e] at hfa
    simp at hfa
  · have : (tileShapeOf z.shape ts).e3 = outerTile z.shape.e3 ts.e3 := rfl
    rw [this]
    unfold outerTile
    split
    · exact le_rfl
    · exact hb.2.1

/-! ### The operations -/

theorem unaryStep_sound {α : Type} {f : α → α} {op : Unary α} (hop : UnaryOp f op) {z : ZTensor}
    {ts ie : Quad} (h : Axes z ts ie) (hf : Fits z)
    (hn : isFullTile (splitOf z ts) ie = false ∨ FullOK z ts ie)
    {ownX ownY : Quad → Buf α} {x out out' : Buf α}
    (hs : unaryStep op (splitOf z ts) ownX ownY x ie out = some out') :
    StepSound z.shape (tileShapeOf z.shape ts) (unaryVal f z.shape x) ie out out' := by
  unfold unaryStep at hs
  obtain ⟨y, hy, rfl⟩ := Option.map_eq_some_iff.1 hs
  have hc := hop _ _ _ _ (tile_positive h (tileSizes_of h hf)) hy
  refine cellwise_sound (g := fun c => f (x c)) h hf hn hc ?_
  intro l hl
  unfold unaryVal elem
  rw [inputTile_cell h hf x (ownX ie) (addr_inside_lt hl)]
  unfold cellMap
  rw [cellIdx_addr (padded_of_inside hl)]

theorem binaryStep_sound {α : Type} {f : α → α → α} {op : Binary α} (hop : BinaryOp f op)
    {z : ZTensor} {ts ie : Quad} (h : Axes z ts ie) (hf : Fits z)
    (hn : isFullTile (splitOf z ts) ie = false ∨ FullOK z ts ie)
    {ownA ownB ownY : Quad → Buf α} {a b out out' : Buf α}
    (hs : binaryStep op (splitOf z ts) ownA ownB ownY a b ie out = some out') :
    StepSound z.shape (tileShapeOf z.shape ts) (binaryVal f z.shape a b) ie out out' := by
  unfold binaryStep at hs
  obtain ⟨y, hy, rfl⟩ := Option.map_eq_some_iff.1 hs
  have hc := hop _ _ _ _ _ (tile_positive h (tileSizes_of h hf)) hy
  refine cellwise_sound (g := fun c => f (a c) (b c)) h hf hn hc ?_
  intro l hl
  unfold binaryVal elem
  rw [inputTile_cell h hf a (ownA ie) (addr_inside_lt hl),
    inputTile_cell h hf b (ownB ie) (addr_inside_lt hl)]
  unfold cellMap
  rw [cellIdx_addr (padded_of_inside hl)]

theorem seqUnary_sound {α : Type} {f : α → α} {op : Unary α} (hop : UnaryOp f op) {lim : Limits}
    {z : ZTensor} (hp : Positive z.shape) (hf : Fits z) {ownX ownY : Quad → Buf α}
    {x out out' : Buf α} (h : seqUnary lim op z ownX ownY x out = some out') :
    Computed z.shape (unaryVal f z.shape x) out out' := by
  unfold seqUnary at h
  obtain ⟨ts, hts, h⟩ := Option.bind_eq_some_iff.1 h
  obtain ⟨hb, hk⟩ := select_all hp hts
  unfold unaryTiled at h
  cases hn : (prepareSplit z ts).noSplit
  · rw [prepareSplit_eq z ts hn] at h
    rw [if_neg (by simp [splitOf])] at h
    refine allTiles_computed hp (ts := ts) (fun ie => mem_allTiles) ?_ h
    intro ie hie o o' ho
    have hx := axes_of hp hf hie
    exact unaryStep_sound hop hx hf (elementwise_full hx hb hf hk) ho
  · have e : prepareSplit z ts = oneTile z := by
      rcases prepareSplit_cases z ts with e | e
      · exact e
      · rw [e] at hn; simp [splitOf] at hn
    rw [e, if_pos (by rfl)] at h
    exact hop _ _ _ _ hp h

theorem seqBinary_sound {α : Type} {f : α → α → α} {op : Binary α} (hop : BinaryOp f op)
    {lim : Limits} {z : ZTensor} (hp : Positive z.shape) (hf : Fits z)
    {ownA ownB ownY : Quad → Buf α} {a b out out' : Buf α}
    (h : seqBinary lim op z ownA ownB ownY a b out = some out') :
    Computed z.shape (binaryVal f z.shape a b) out out' := by
  unfold seqBinary at h
  obtain ⟨ts, hts, h⟩ := Option.bind_eq_some_iff.1 h
  obtain ⟨hb, hk⟩ := select_all hp hts
  unfold binaryTiled at h
  cases hn : (prepareSplit z ts).noSplit
  · rw [prepareSplit_eq z ts hn] at h
    rw [if_neg (by simp [splitOf])] at h
    refine allTiles_computed hp (ts := ts) (fun ie => mem_allTiles) ?_ h
    intro ie hie o o' ho
    have hx := axes_of hp hf hie
    exact binaryStep_sound hop hx hf (elementwise_full hx hb hf hk) ho
  · have e : prepareSplit z ts = oneTile z := by
      rcases prepareSplit_cases z ts with e | e
      · exact e
      · rw [e] at hn; simp [splitOf] at hn
    rw [e, if_pos (by rfl)] at h
    exact hop _ _ _ _ _ hp h

end Verif.Zdnnx
