import Verif.Zdnnx.Omp

/-! The matrix product. -/

namespace Verif.Zdnnx

/-! ### One operand -/

theorem prepared (z : ZTensor) (ts : Quad) (hz : Plain z) :
    prepareSplit z ts = splitOf z ts ∨
    (prepareSplit z ts = oneTile z ∧ (splitOf z ts).numTiles = ⟨1, 1, 1, 1⟩) := by
  unfold prepareSplit
  rw [if_neg (by have := hz.dtype; have := hz.layout; simp_all)]
  unfold splitSupported
  dsimp only
  split
  · rename_i h
    right
    refine ⟨rfl, ?_⟩
    have e : (splitOf z ts).numTiles = numTilesOf z.shape (tileShapeOf z.shape ts) := rfl
    rw [e]
    generalize numTilesOf z.shape (tileShapeOf z.shape ts) = q at h
    obtain ⟨a, b, c, d⟩ := q
    dsimp only at h
    have h4 := Nat.eq_one_of_mul_eq_one_left h
    rw [h4, Nat.mul_one] at h
    have h3 := Nat.eq_one_of_mul_eq_one_left h
    rw [h3, Nat.mul_one] at h
    have h2 := Nat.eq_one_of_mul_eq_one_left h
    rw [h2, Nat.mul_one] at h
    rw [h, h2, h3, h4]
  · rw [if_neg (by have := hz.dtype; simp_all)]
    exact Or.inl rfl

theorem prepared_numTiles (z : ZTensor) (ts : Quad) (hz : Plain z) :
    (prepareSplit z ts).numTiles = (splitOf z ts).numTiles := by
  rcases prepared z ts hz with h | ⟨h, h'⟩
  · rw [h]
  · rw [h, h']; rfl

theorem one_axis {u s t d n ie : ℕ} (h : Ax u s t d n ie) (hn : n = 1) :
    ie = 0 ∧ min t (s - ie * t) = s := by
  have hl := h.lt
  have : ie = 0 := by omega
  subst this
  have h1 := le_mul_cdiv (a := s) h.t0
  rw [← h.n_eq, hn] at h1
  omega

theorem one_tile {z : ZTensor} {ts ie : Quad} (h : Axes z ts ie)
    (hn : (splitOf z ts).numTiles = ⟨1, 1, 1, 1⟩) :
    trueTile z.shape (tileShapeOf z.shape ts) ie = z.shape ∧
      ∀ l, glob (tileShapeOf z.shape ts) ie l = l := by
  obtain ⟨i4, e4⟩ := one_axis h.a4 (by rw [hn])
  obtain ⟨i3, e3⟩ := one_axis h.a3 (by rw [hn])
  obtain ⟨i2, e2⟩ := one_axis h.a2 (by rw [hn])
  obtain ⟨i1, e1⟩ := one_axis h.a1 (by rw [hn])
  constructor
  · unfold trueTile
    rw [e4, e3, e2, e1]
  · intro l
    unfold glob
    rw [i4, i3, i2, i1]
    simp

theorem notFull {z : ZTensor} {ts ie : Quad} (h : Axes z ts ie) (h3 : ts.e3 = 0) :
    isFullTile (splitOf z ts) ie = false := by
  apply isFullTile_whole h
  right; left
  show outerTile _ _ = _
  rw [h3]; rfl

theorem prepared_desc {z : ZTensor} {ts ie : Quad} (hz : Plain z) (h : Axes z ts ie)
    (h3 : ts.e3 = 0) : tileDescAt (prepareSplit z ts) ie =
      trueTile z.shape (tileShapeOf z.shape ts) ie := by
  rcases prepared z ts hz with e | ⟨e, hn⟩
  · rw [e]; exact tileDescAt_true h hz.fits (notFull h h3)
  · rw [e, (one_tile h hn).1]; rfl

theorem prepared_full (z : ZTensor) (ts : Quad) : (prepareSplit z ts).full = z := by
  rcases prepareSplit_cases z ts with e | e <;> rw [e] <;> rfl

theorem prepared_elem {α : Type} {z : ZTensor} {ts ie : Quad} (hz : Plain z) (h : Axes z ts ie)
    (h3 : ts.e3 = 0) (x own : Buf α) {l : Quad}
    (hl : Inside l (trueTile z.shape (tileShapeOf z.shape ts) ie)) :
    elem (inputTile (prepareSplit z ts) ie x own)
        (trueTile z.shape (tileShapeOf z.shape ts) ie) l =
      elem x z.shape (glob (tileShapeOf z.shape ts) ie l) := by
  rcases prepared z ts hz with e | ⟨e, hn⟩
  · rw [e]; exact inputTile_elem h hz.fits (notFull h h3) x own hl
  · rw [e, (one_tile h hn).1, (one_tile h hn).2]; simp [inputTile, oneTile, reuseOffset]

theorem prepared_store {α : Type} {z : ZTensor} {ts ie : Quad} (hz : Plain z) (h : Axes z ts ie)
    (h3 : ts.e3 = 0) {own full y : Buf α} {val tval : Quad → α}
    (hc : Computed (trueTile z.shape (tileShapeOf z.shape ts) ie) tval
      (outputTile (prepareSplit z ts) ie full own) y)
    (hv : ∀ l, Inside l (trueTile z.shape (tileShapeOf z.shape ts) ie) →
      tval l = val (glob (tileShapeOf z.shape ts) ie l)) :
    StepSound z.shape (tileShapeOf z.shape ts) val ie full
      (storeTile (prepareSplit z ts) ie y full) := by
  rcases prepared z ts hz with e | ⟨e, hn⟩
  · rw [e] at hc ⊢; exact storeTile_sound h hz.fits (notFull h h3) hc hv
  · obtain ⟨e1, e2⟩ := one_tile h hn
    rw [e, e1] at hc
    rw [e1] at hv
    have es : storeTile (oneTile z) ie y full = y := by
      funext a
      simp [storeTile, oneTile, reuseOffset]
    rw [e, es]
    have hall : ∀ i, Inside i z.shape → elem y z.shape i = val i := by
      intro i hi
      rw [hc.1 i hi, hv i hi, e2]
    refine ⟨fun i hi _ => hall i hi, fun i hi => Or.inr (hall i hi), fun a ha => ?_⟩
    rw [hc.2 a ha]
    simp [outputTile, oneTile, reuseOffset]

theorem desc_plain {z : ZTensor} {ts ie : Quad} (hz : Plain z) (h : Axes z ts ie) :
    Plain { z with shape := trueTile z.shape (tileShapeOf z.shape ts) ie } :=
  ⟨trueTile_positive h, desc_trueTile h hz.fits, hz.dtype, hz.layout⟩

/-! ### The sizes of the tiles of the four operands -/

/-- The size of the tile `ie` along a dimension. -/
def ext (u s ts ie : ℕ) : ℕ := min (innerTile u s ts) (s - ie * innerTile u s ts)

theorem trueTile_ext (s ts ie : Quad) : trueTile s (tileShapeOf s ts) ie =
    ⟨ext 1 s.e4 ts.e4 ie.e4, ext 1 s.e3 ts.e3 ie.e3, ext 32 s.e2 ts.e2 ie.e2,
     ext 64 s.e1 ts.e1 ie.e1⟩ := by
  unfold trueTile ext tileShapeOf
  simp only [outerTile_eq]

theorem innerTile_zero (u s : ℕ) : innerTile u s 0 = s := rfl

theorem ext_whole (u s : ℕ) : ext u s 0 0 = s := by
  unfold ext; rw [innerTile_zero]; omega

theorem ext_one {u ts : ℕ} (hu : 0 < u) : ext u 1 ts 0 = 1 := by
  unfold ext
  have := innerTile_pos (z := ts) hu Nat.one_pos
  omega

theorem glob_inner (s ts ie l : Quad) : glob (tileShapeOf s ts) ie l =
    ⟨ie.e4 * innerTile 1 s.e4 ts.e4 + l.e4, ie.e3 * innerTile 1 s.e3 ts.e3 + l.e3,
     ie.e2 * innerTile 32 s.e2 ts.e2 + l.e2, ie.e1 * innerTile 64 s.e1 ts.e1 + l.e1⟩ := by
  unfold glob tileShapeOf
  simp only [outerTile_eq]

theorem numTiles_inner (z : ZTensor) (ts : Quad) : (splitOf z ts).numTiles =
    ⟨cdiv z.shape.e4 (innerTile 1 z.shape.e4 ts.e4), cdiv z.shape.e3 (innerTile 1 z.shape.e3 ts.e3),
     cdiv z.shape.e2 (innerTile 32 z.shape.e2 ts.e2),
     cdiv z.shape.e1 (innerTile 64 z.shape.e1 ts.e1)⟩ := by
  simp only [← outerTile_eq]; rfl

theorem stackOf_lt {s : Quad} {b : ℕ} (h : b < s.e4) : stackOf s b = b := by
  unfold stackOf
  split
  · omega
  · rfl

theorem one_stack {z : ZTensor} (hz : z.layout = .d2 ∨ z.layout = .d1) (hf : Fits z) :
    z.shape.e4 = 1 := by
  unfold Fits at hf
  rw [← hf]
  rcases hz with e | e <;> rw [e] <;> rfl

/-- The loop index of the right matrix. -/
def idxB (st : Bool) (ie : Quad) : Quad := ⟨if st then ie.e4 else 0, 0, 0, ie.e1⟩
/-- The loop index of the left matrix. -/
def idxA (ie : Quad) : Quad := ⟨ie.e4, 0, ie.e2, 0⟩

/-- The relation between the stacks of the operands. -/
theorem mm_stack {za zb zc zy : ZTensor} (h : MMOk za zb zc zy) :
    (za.layout = .d3s ∧ zb.layout = .d3s ∧ zc.layout = .d2s ∧ zb.shape.e4 = zy.shape.e4 ∧
        zc.shape.e4 = zy.shape.e4) ∨
      (zb.layout ≠ .d3s ∧ zb.shape.e4 = 1 ∧ zc.shape.e4 = 1) := by
  rcases h.lay with ⟨la, lb, lc, ly⟩ | ⟨la, lb, lc, ly⟩ | ⟨la, lb, lc, ly⟩
  · exact Or.inr ⟨by rw [lb]; simp, one_stack (Or.inl lb) h.b.fits, one_stack (Or.inr lc) h.c.fits⟩
  · have := h.stackB lb
    exact Or.inl ⟨la, lb, lc, this.1, this.2⟩
  · exact Or.inr ⟨by rw [lb]; simp, one_stack (Or.inl lb) h.b.fits, one_stack (Or.inr lc) h.c.fits⟩

section Step

variable {ta tb : Bool} {za zb zc zy : ZTensor} {ts : Quad}

/-- The number of tiles of the operands in terms of those of the result. -/
theorem mm_numTiles (h : MMOk za zb zc zy)
    (hs : MatMulShapes ta tb za.shape zb.shape zc.shape zy.shape)
    (h2 : ta = true → ts.e2 = 0) (h1 : tb = true → ts.e1 = 0) :
    (⟨(splitOf za ⟨ts.e4, 0, ts.e2, 0⟩).numTiles.e4, 1,
      (splitOf za ⟨ts.e4, 0, ts.e2, 0⟩).numTiles.e2,
      (splitOf zb ⟨ts.e4, 0, 0, ts.e1⟩).numTiles.e1⟩ : Quad) =
    (splitOf zy ⟨ts.e4, 0, ts.e2, ts.e1⟩).numTiles := by
  obtain ⟨_, hy2, hy1, _, _, _, _, _, hy3, _⟩ := hs
  simp only [numTiles_inner, Quad.mk.injEq]
  have pa := h.a.pos
  have pb := h.b.pos
  have py := h.y.pos
  refine ⟨by rw [h.stackA], ?_, ?_, ?_⟩
  · rw [hy3]; rfl
  · cases ta
    · rw [hy2]; rfl
    · rw [h2 rfl, innerTile_zero, innerTile_zero, cdiv_self pa.2.2.1, cdiv_self py.2.2.1]
  · cases tb
    · rw [hy1]; rfl
    · rw [h1 rfl, innerTile_zero, innerTile_zero, cdiv_self pb.2.2.2, cdiv_self py.2.2.2]

/-- The tiles of the operands exist. -/
theorem mm_inside (h : MMOk za zb zc zy)
    (hs : MatMulShapes ta tb za.shape zb.shape zc.shape zy.shape)
    (h2 : ta = true → ts.e2 = 0) (h1 : tb = true → ts.e1 = 0) {st : Bool}
    (hst : st = true ↔ zb.layout = .d3s) {ie : Quad}
    (hie : Inside ie (splitOf zy ⟨ts.e4, 0, ts.e2, ts.e1⟩).numTiles) :
    Inside (idxA ie) (splitOf za ⟨ts.e4, 0, ts.e2, 0⟩).numTiles ∧
    Inside (idxB st ie) (splitOf zb ⟨ts.e4, 0, 0, ts.e1⟩).numTiles ∧
    Inside (idxB st ie) (splitOf zc ⟨ts.e4, 0, 0, ts.e1⟩).numTiles := by
  have hn := mm_numTiles h hs h2 h1
  rw [← hn] at hie
  obtain ⟨i4, i3, i2, i1⟩ := hie
  dsimp only at i4 i3 i2 i1
  obtain ⟨_, hy2, hy1, hc1, hc2, ha3, hb3, hc3, hy3, _⟩ := hs
  have pa := h.a.pos
  have pb := h.b.pos
  have pc := h.c.pos
  have i1c : ie.e1 < (splitOf zc ⟨ts.e4, 0, 0, ts.e1⟩).numTiles.e1 := by
    rw [numTiles_inner] at i1 ⊢
    dsimp only at i1 ⊢
    rw [hc1, hy1]
    cases tb
    · exact i1
    · rw [h1 rfl, innerTile_zero, cdiv_self pb.2.2.2] at i1
      rw [h1 rfl, innerTile_zero]
      show ie.e1 < cdiv (colsB true zb.shape) (colsB true zb.shape)
      rw [cdiv_self (by rw [← hy1]; exact h.y.pos.2.2.2)]
      exact i1
  have k : ∀ s u : ℕ, 0 < s → 0 < cdiv s (innerTile u s 0) := by
    intro s u hs
    rw [innerTile_zero, cdiv_self hs]; exact Nat.one_pos
  have kk : ∀ s u t : ℕ, 0 < u → 0 < s → 0 < cdiv s (innerTile u s t) := by
    intro s u t hu hs
    exact cdiv_pos hs (innerTile_pos hu hs)
  refine ⟨⟨i4, ?_, i2, ?_⟩, ⟨?_, ?_, ?_, i1⟩, ⟨?_, ?_, ?_, i1c⟩⟩
  · rw [numTiles_inner]; exact k _ _ pa.2.1
  · rw [numTiles_inner]; exact k _ _ pa.2.2.2
  · rw [numTiles_inner] at i4 ⊢
    dsimp only [idxB] at i4 ⊢
    rcases mm_stack h with ⟨_, lb, _, e, _⟩ | ⟨lb, _⟩
    · rw [if_pos (hst.2 lb), e, ← h.stackA]; exact i4
    · rw [if_neg (by rw [hst]; exact lb)]; exact kk _ _ _ Nat.one_pos pb.1
  · rw [numTiles_inner]; exact k _ _ pb.2.1
  · rw [numTiles_inner]; exact k _ _ pb.2.2.1
  · rw [numTiles_inner] at i4 ⊢
    dsimp only [idxB] at i4 ⊢
    rcases mm_stack h with ⟨_, lb, _, _, e⟩ | ⟨lb, _⟩
    · rw [if_pos (hst.2 lb), e, ← h.stackA]; exact i4
    · rw [if_neg (by rw [hst]; exact lb)]; exact kk _ _ _ Nat.one_pos pc.1
  · rw [numTiles_inner]; exact k _ _ pc.2.1
  · rw [numTiles_inner]; exact k _ _ pc.2.2.1

/-- A dimension that is not split. -/
theorem whole_idx {u s n ie : ℕ} {t d : ℕ} (h : Ax u s t d n ie) (ht : t = s) : ie = 0 := by
  have := h.lt
  rw [h.n_eq, ht, cdiv_self h.s0] at this
  omega

/-- The shapes of the tiles of the four operands. -/
theorem mm_tiles (h : MMOk za zb zc zy)
    (hs : MatMulShapes ta tb za.shape zb.shape zc.shape zy.shape)
    (h2 : ta = true → ts.e2 = 0) (h1 : tb = true → ts.e1 = 0) {st : Bool}
    (hst : st = true ↔ zb.layout = .d3s) {ie : Quad}
    (xy : Axes zy ⟨ts.e4, 0, ts.e2, ts.e1⟩ ie) :
    (ta = true → ie.e2 = 0) ∧ (tb = true → ie.e1 = 0) ∧ ie.e3 = 0 ∧
    MatMulShapes ta tb
      (trueTile za.shape (tileShapeOf za.shape ⟨ts.e4, 0, ts.e2, 0⟩) (idxA ie))
      (trueTile zb.shape (tileShapeOf zb.shape ⟨ts.e4, 0, 0, ts.e1⟩) (idxB st ie))
      (trueTile zc.shape (tileShapeOf zc.shape ⟨ts.e4, 0, 0, ts.e1⟩) (idxB st ie))
      (trueTile zy.shape (tileShapeOf zy.shape ⟨ts.e4, 0, ts.e2, ts.e1⟩) ie) ∧
    (trueTile za.shape (tileShapeOf za.shape ⟨ts.e4, 0, ts.e2, 0⟩) (idxA ie)).e4 =
      (trueTile zy.shape (tileShapeOf zy.shape ⟨ts.e4, 0, ts.e2, ts.e1⟩) ie).e4 ∧
    (zb.layout = .d3s →
      (trueTile zb.shape (tileShapeOf zb.shape ⟨ts.e4, 0, 0, ts.e1⟩) (idxB st ie)).e4 =
        (trueTile zy.shape (tileShapeOf zy.shape ⟨ts.e4, 0, ts.e2, ts.e1⟩) ie).e4 ∧
      (trueTile zc.shape (tileShapeOf zc.shape ⟨ts.e4, 0, 0, ts.e1⟩) (idxB st ie)).e4 =
        (trueTile zy.shape (tileShapeOf zy.shape ⟨ts.e4, 0, ts.e2, ts.e1⟩) ie).e4) ∧
    depthA ta (trueTile za.shape (tileShapeOf za.shape ⟨ts.e4, 0, ts.e2, 0⟩) (idxA ie)) =
      depthA ta za.shape := by
  obtain ⟨hk, hy2, hy1, hc1, hc2, ha3, hb3, hc3, hy3, hsa, hsb⟩ := hs
  have i3 : ie.e3 = 0 := whole_idx xy.a3 rfl
  have i2 : ta = true → ie.e2 = 0 := fun e => whole_idx xy.a2 (by
    show innerTile _ _ _ = _
    rw [h2 e]; rfl)
  have i1 : tb = true → ie.e1 = 0 := fun e => whole_idx xy.a1 (by
    show innerTile _ _ _ = _
    rw [h1 e]; rfl)
  refine ⟨i2, i1, i3, ?_⟩
  simp only [trueTile_ext, idxA, idxB, i3, ext_whole]
  have dA : depthA ta ⟨ext 1 za.shape.e4 ts.e4 ie.e4, za.shape.e3, ext 32 za.shape.e2 ts.e2 ie.e2,
      za.shape.e1⟩ = depthA ta za.shape := by
    cases ta
    · rfl
    · simp only [depthA, if_true, h2 rfl, i2 rfl, ext_whole]
  have dB : ∀ q, depthB tb ⟨q, zb.shape.e3, zb.shape.e2,
      ext 64 zb.shape.e1 ts.e1 ie.e1⟩ = depthB tb zb.shape := by
    intro q
    cases tb
    · rfl
    · simp only [depthB, if_true, h1 rfl, i1 rfl, ext_whole]
  have cB : ∀ q, colsB tb ⟨q, zb.shape.e3, zb.shape.e2,
      ext 64 zb.shape.e1 ts.e1 ie.e1⟩ = ext 64 zy.shape.e1 ts.e1 ie.e1 := by
    intro q
    rw [hy1]
    cases tb
    · rfl
    · simp only [colsB, if_true, h1 rfl, i1 rfl, ext_whole]
  have rA : rowsA ta ⟨ext 1 za.shape.e4 ts.e4 ie.e4, za.shape.e3, ext 32 za.shape.e2 ts.e2 ie.e2,
      za.shape.e1⟩ = ext 32 zy.shape.e2 ts.e2 ie.e2 := by
    rw [hy2]
    cases ta
    · rfl
    · simp only [rowsA, if_true, h2 rfl, i2 rfl, ext_whole]
  have e4 : ext 1 za.shape.e4 ts.e4 ie.e4 = ext 1 zy.shape.e4 ts.e4 ie.e4 := by rw [h.stackA]
  have hB : (zb.layout = .d3s → ext 1 zb.shape.e4 ts.e4 (if st = true then ie.e4 else 0) =
      ext 1 zy.shape.e4 ts.e4 ie.e4 ∧ ext 1 zc.shape.e4 ts.e4 (if st = true then ie.e4 else 0) =
      ext 1 zy.shape.e4 ts.e4 ie.e4) := by
    intro lb
    rw [if_pos (hst.2 lb), (h.stackB lb).1, (h.stackB lb).2]
    exact ⟨rfl, rfl⟩
  refine ⟨⟨?_, rA.symm, (cB _).symm, ?_, ?_, ha3, hb3, hc3, hy3, Or.inl e4, ?_⟩, e4, hB, dA⟩
  · rw [dA, dB]; exact hk
  · simp only [hc1]
  · exact hc2
  · dsimp only
    rcases mm_stack h with ⟨_, lb, _⟩ | ⟨lb, eb, ec⟩
    · exact Or.inl (hB lb)
    · right
      rw [if_neg (by rw [hst]; exact lb), eb, ec]
      exact ⟨ext_one Nat.one_pos, ext_one Nat.one_pos, e4⟩

/-- The values of the product of the tiles are those of the product. -/
theorem mm_values {α : Type} [CommSemiring α] (h : MMOk za zb zc zy)
    (hs : MatMulShapes ta tb za.shape zb.shape zc.shape zy.shape)
    (h2 : ta = true → ts.e2 = 0) (h1 : tb = true → ts.e1 = 0) {st : Bool}
    (hst : st = true ↔ zb.layout = .d3s) {ie : Quad}
    (xa : Axes za ⟨ts.e4, 0, ts.e2, 0⟩ (idxA ie))
    (xb : Axes zb ⟨ts.e4, 0, 0, ts.e1⟩ (idxB st ie))
    (xc : Axes zc ⟨ts.e4, 0, 0, ts.e1⟩ (idxB st ie))
    (xy : Axes zy ⟨ts.e4, 0, ts.e2, ts.e1⟩ ie) (a b c oa ob oc : Buf α) {l : Quad}
    (hl : Inside l (trueTile zy.shape (tileShapeOf zy.shape ⟨ts.e4, 0, ts.e2, ts.e1⟩) ie)) :
    matmulVal ta tb
      (trueTile za.shape (tileShapeOf za.shape ⟨ts.e4, 0, ts.e2, 0⟩) (idxA ie))
      (trueTile zb.shape (tileShapeOf zb.shape ⟨ts.e4, 0, 0, ts.e1⟩) (idxB st ie))
      (trueTile zc.shape (tileShapeOf zc.shape ⟨ts.e4, 0, 0, ts.e1⟩) (idxB st ie))
      (inputTile (prepareSplit za ⟨ts.e4, 0, ts.e2, 0⟩) (idxA ie) a oa)
      (inputTile (prepareSplit zb ⟨ts.e4, 0, 0, ts.e1⟩) (idxB st ie) b ob)
      (inputTile (prepareSplit zc ⟨ts.e4, 0, 0, ts.e1⟩) (idxB st ie) c oc) l =
    matmulVal ta tb za.shape zb.shape zc.shape a b c
      (glob (tileShapeOf zy.shape ⟨ts.e4, 0, ts.e2, ts.e1⟩) ie l) := by
  obtain ⟨i2, i1, i3, hT, eA4, eB4, dA⟩ := mm_tiles h hs h2 h1 hst xy
  have hi : Inside (glob (tileShapeOf zy.shape ⟨ts.e4, 0, ts.e2, ts.e1⟩) ie l) zy.shape :=
    ⟨xy.a4.glob_lt rfl hl.1, xy.a3.glob_lt rfl hl.2.1, xy.a2.glob_lt rfl hl.2.2.1,
      xy.a1.glob_lt rfl hl.2.2.2⟩
  obtain ⟨hk, hy2, hy1, hc1, hc2, ha3, hb3, hc3, hy3, _, _⟩ := hs
  obtain ⟨tk, ty2, ty1, tc1, tc2, ta3, tb3, tc3, ty3, _, _⟩ := hT
  have gA := fun l => glob_inner za.shape ⟨ts.e4, 0, ts.e2, 0⟩ (idxA ie) l
  have gB := fun l => glob_inner zb.shape ⟨ts.e4, 0, 0, ts.e1⟩ (idxB st ie) l
  have gC := fun l => glob_inner zc.shape ⟨ts.e4, 0, 0, ts.e1⟩ (idxB st ie) l
  have gY := glob_inner zy.shape ⟨ts.e4, 0, ts.e2, ts.e1⟩ ie l
  set G := glob (tileShapeOf zy.shape ⟨ts.e4, 0, ts.e2, ts.e1⟩) ie l with hG
  have G4 : G.e4 = ie.e4 * innerTile 1 zy.shape.e4 ts.e4 + l.e4 := by rw [gY]
  have G2 : G.e2 = ie.e2 * innerTile 32 zy.shape.e2 ts.e2 + l.e2 := by rw [gY]
  have G1 : G.e1 = ie.e1 * innerTile 64 zy.shape.e1 ts.e1 + l.e1 := by rw [gY]
  -- the position in the stack
  have sA : stackOf (trueTile za.shape (tileShapeOf za.shape ⟨ts.e4, 0, ts.e2, 0⟩) (idxA ie)) l.e4 =
      l.e4 := stackOf_lt (by rw [eA4]; exact hl.1)
  have sA' : stackOf za.shape G.e4 = G.e4 := stackOf_lt (by rw [h.stackA]; exact hi.1)
  have tA4 : (trueTile za.shape (tileShapeOf za.shape ⟨ts.e4, 0, ts.e2, 0⟩) (idxA ie)).e4 =
      ext 1 za.shape.e4 ts.e4 ie.e4 := by rw [trueTile_ext]; rfl
  unfold matmulVal
  rw [dA]
  congr 1
  · apply Finset.sum_congr rfl
    intro k hkr
    rw [Finset.mem_range] at hkr
    congr 1
    · unfold elemA
      rw [sA, sA']
      cases hta : ta
      · have hin : Inside ⟨l.e4, 0, l.e2, k⟩
            (trueTile za.shape (tileShapeOf za.shape ⟨ts.e4, 0, ts.e2, 0⟩) (idxA ie)) := by
          refine ⟨by rw [eA4]; exact hl.1, by rw [ta3]; exact Nat.one_pos, ?_, ?_⟩
          · rw [hta] at ty2
            have := hl.2.2.1
            rw [ty2] at this
            exact this
          · rw [hta] at dA hkr
            rw [← dA] at hkr
            exact hkr
        rw [if_neg (by simp), if_neg (by simp), prepared_elem h.a xa rfl a oa hin, gA]
        congr 1
        simp only [idxA, G4, G2, Nat.zero_mul, Nat.zero_add, h.stackA, Quad.mk.injEq, true_and,
          and_true]
        rw [hta] at hy2
        rw [hy2]
        rfl
      · have hin : Inside ⟨l.e4, 0, k, l.e2⟩
            (trueTile za.shape (tileShapeOf za.shape ⟨ts.e4, 0, ts.e2, 0⟩) (idxA ie)) := by
          refine ⟨by rw [eA4]; exact hl.1, by rw [ta3]; exact Nat.one_pos, ?_, ?_⟩
          · rw [hta] at dA hkr
            rw [← dA] at hkr
            exact hkr
          · rw [hta] at ty2
            have := hl.2.2.1
            rw [ty2] at this
            exact this
        rw [if_pos rfl, if_pos rfl, prepared_elem h.a xa rfl a oa hin, gA]
        congr 1
        simp only [idxA, G4, G2, Nat.zero_mul, Nat.zero_add, h.stackA, Quad.mk.injEq, true_and,
          and_true, i2 hta]
    · have hkB : k < depthB tb
          (trueTile zb.shape (tileShapeOf zb.shape ⟨ts.e4, 0, 0, ts.e1⟩) (idxB st ie)) := by
        rw [← tk, dA]; exact hkr
      have key : ∃ q, stackOf (trueTile zb.shape (tileShapeOf zb.shape ⟨ts.e4, 0, 0, ts.e1⟩)
            (idxB st ie)) l.e4 = q ∧
          q < (trueTile zb.shape (tileShapeOf zb.shape ⟨ts.e4, 0, 0, ts.e1⟩) (idxB st ie)).e4 ∧
          (idxB st ie).e4 * innerTile 1 zb.shape.e4 ts.e4 + q = stackOf zb.shape G.e4 := by
        rcases mm_stack h with ⟨_, lb, _, eb, _⟩ | ⟨lb, eb, _⟩
        · have hlt : l.e4 < (trueTile zb.shape (tileShapeOf zb.shape ⟨ts.e4, 0, 0, ts.e1⟩)
              (idxB st ie)).e4 := by rw [(eB4 lb).1]; exact hl.1
          refine ⟨l.e4, stackOf_lt hlt, hlt, ?_⟩
          rw [stackOf_lt (by rw [eb]; exact hi.1), G4, eb]
          simp only [idxB]
          rw [if_pos (hst.2 lb)]
        · have e1 : (trueTile zb.shape (tileShapeOf zb.shape ⟨ts.e4, 0, 0, ts.e1⟩)
              (idxB st ie)).e4 = 1 := by
            rw [trueTile_ext]
            simp only [idxB]
            rw [if_neg (by rw [hst]; exact lb), eb, ext_one Nat.one_pos]
          refine ⟨0, by unfold stackOf; rw [if_pos e1], by rw [e1]; exact Nat.one_pos, ?_⟩
          simp only [idxB]
          rw [if_neg (by rw [hst]; exact lb)]
          unfold stackOf
          rw [if_pos eb]
          simp
      obtain ⟨q, hq, hqlt, hqs⟩ := key
      unfold elemB
      rw [hq, ← hqs]
      cases htb : tb
      · have hin : Inside ⟨q, 0, k, l.e1⟩
            (trueTile zb.shape (tileShapeOf zb.shape ⟨ts.e4, 0, 0, ts.e1⟩) (idxB st ie)) := by
          refine ⟨hqlt, by rw [tb3]; exact Nat.one_pos, ?_, ?_⟩
          · rw [htb] at hkB; exact hkB
          · rw [htb] at ty1
            have := hl.2.2.2
            rw [ty1] at this
            exact this
        rw [if_neg (by simp), if_neg (by simp), prepared_elem h.b xb rfl b ob hin, gB]
        congr 1
        simp only [idxB, G1, Nat.zero_mul, Nat.zero_add, Quad.mk.injEq, true_and]
        rw [htb] at hy1
        rw [hy1]
        rfl
      · have hin : Inside ⟨q, 0, l.e1, k⟩
            (trueTile zb.shape (tileShapeOf zb.shape ⟨ts.e4, 0, 0, ts.e1⟩) (idxB st ie)) := by
          refine ⟨hqlt, by rw [tb3]; exact Nat.one_pos, ?_, ?_⟩
          · rw [htb] at ty1
            have := hl.2.2.2
            rw [ty1] at this
            exact this
          · rw [htb] at hkB; exact hkB
        rw [if_pos rfl, if_pos rfl, prepared_elem h.b xb rfl b ob hin, gB]
        congr 1
        simp only [idxB, G1, Nat.zero_mul, Nat.zero_add, Quad.mk.injEq, true_and, i1 htb]
  · have key : ∃ q, stackOf (trueTile zc.shape (tileShapeOf zc.shape ⟨ts.e4, 0, 0, ts.e1⟩)
          (idxB st ie)) l.e4 = q ∧
        q < (trueTile zc.shape (tileShapeOf zc.shape ⟨ts.e4, 0, 0, ts.e1⟩) (idxB st ie)).e4 ∧
        (idxB st ie).e4 * innerTile 1 zc.shape.e4 ts.e4 + q = stackOf zc.shape G.e4 := by
      rcases mm_stack h with ⟨_, lb, _, _, eb⟩ | ⟨lb, _, eb⟩
      · have hlt : l.e4 < (trueTile zc.shape (tileShapeOf zc.shape ⟨ts.e4, 0, 0, ts.e1⟩)
            (idxB st ie)).e4 := by rw [(eB4 lb).2]; exact hl.1
        refine ⟨l.e4, stackOf_lt hlt, hlt, ?_⟩
        rw [stackOf_lt (by rw [eb]; exact hi.1), G4, eb]
        simp only [idxB]
        rw [if_pos (hst.2 lb)]
      · have e1 : (trueTile zc.shape (tileShapeOf zc.shape ⟨ts.e4, 0, 0, ts.e1⟩)
            (idxB st ie)).e4 = 1 := by
          rw [trueTile_ext]
          simp only [idxB]
          rw [if_neg (by rw [hst]; exact lb), eb, ext_one Nat.one_pos]
        refine ⟨0, by unfold stackOf; rw [if_pos e1], by rw [e1]; exact Nat.one_pos, ?_⟩
        simp only [idxB]
        rw [if_neg (by rw [hst]; exact lb)]
        unfold stackOf
        rw [if_pos eb]
        simp
    obtain ⟨q, hq, hqlt, hqs⟩ := key
    rw [hq, ← hqs]
    have hin : Inside ⟨q, 0, 0, l.e1⟩
        (trueTile zc.shape (tileShapeOf zc.shape ⟨ts.e4, 0, 0, ts.e1⟩) (idxB st ie)) := by
      refine ⟨hqlt, by rw [tc3]; exact Nat.one_pos, by rw [tc2]; exact Nat.one_pos, ?_⟩
      rw [tc1]; exact hl.2.2.2
    rw [prepared_elem h.c xc rfl c oc hin, gC]
    congr 1
    simp only [idxB, G1, Nat.zero_mul, Nat.zero_add, Quad.mk.injEq, true_and]
    rw [hc1]

/-- The operands of the product of tiles. -/
theorem mm_tileOk (h : MMOk za zb zc zy)
    (hs : MatMulShapes ta tb za.shape zb.shape zc.shape zy.shape)
    (h2 : ta = true → ts.e2 = 0) (h1 : tb = true → ts.e1 = 0) {st : Bool}
    (hst : st = true ↔ zb.layout = .d3s) {ie : Quad}
    (xa : Axes za ⟨ts.e4, 0, ts.e2, 0⟩ (idxA ie))
    (xb : Axes zb ⟨ts.e4, 0, 0, ts.e1⟩ (idxB st ie))
    (xc : Axes zc ⟨ts.e4, 0, 0, ts.e1⟩ (idxB st ie))
    (xy : Axes zy ⟨ts.e4, 0, ts.e2, ts.e1⟩ ie) :
    MMOk (tileTensor (prepareSplit za ⟨ts.e4, 0, ts.e2, 0⟩) (idxA ie))
      (tileTensor (prepareSplit zb ⟨ts.e4, 0, 0, ts.e1⟩) (idxB st ie))
      (tileTensor (prepareSplit zc ⟨ts.e4, 0, 0, ts.e1⟩) (idxB st ie))
      (tileTensor (prepareSplit zy ⟨ts.e4, 0, ts.e2, ts.e1⟩) ie) := by
  obtain ⟨_, _, _, _, eA4, eB4, _⟩ := mm_tiles h hs h2 h1 hst xy
  unfold tileTensor
  rw [prepared_desc h.a xa rfl, prepared_desc h.b xb rfl, prepared_desc h.c xc rfl,
    prepared_desc h.y xy rfl, prepared_full, prepared_full, prepared_full, prepared_full]
  exact ⟨desc_plain h.a xa, desc_plain h.b xb, desc_plain h.c xc, desc_plain h.y xy, h.lay, eA4,
    eB4⟩

end Step

theorem stacked_iff {α : Type} {g : MMArgs α} (h : MMOk g.za g.zb g.zc g.zy) :
    g.stacked = true ↔ g.zb.layout = .d3s := by
  unfold MMArgs.stacked
  constructor
  · intro e
    simp only [Bool.and_eq_true, beq_iff_eq] at e
    exact e.1.2
  · intro e
    rcases mm_stack h with ⟨la, lb, lc, _⟩ | ⟨lb, _⟩
    · rw [la, lb, lc]; rfl
    · exact absurd e lb

/-- The loops of the product, in any order. -/
theorem matmulTiled_sound {α : Type} [CommSemiring α] {ta tb : Bool} {op : MatMul α}
    (hop : MatMulOp ZTensor.shape MMOk ta tb op) {g : MMArgs α} (h : MMOk g.za g.zb g.zc g.zy)
    (hs : MatMulShapes ta tb g.za.shape g.zb.shape g.zc.shape g.zy.shape) {ts : Quad}
    (h2 : ta = true → ts.e2 = 0) (h1 : tb = true → ts.e1 = 0) {w : MMOwn α} {order : List Quad}
    (hord : order.Perm (allTiles (g.splits ts).bounds)) {out out' : Buf α}
    (hr : runTiles (matmulStep op g w (g.splits ts)) order out = some out') :
    Computed g.zy.shape (matmulVal ta tb g.za.shape g.zb.shape g.zc.shape g.a g.b g.c) out out' := by
  have hst := stacked_iff h
  have hb : (g.splits ts).bounds = (splitOf g.zy ⟨ts.e4, 0, ts.e2, ts.e1⟩).numTiles := by
    rw [← mm_numTiles h hs h2 h1]
    unfold MMSplits.bounds MMArgs.splits
    dsimp only
    rw [prepared_numTiles _ _ h.a, prepared_numTiles _ _ h.b]
  rw [hb] at hord
  refine allTiles_computed h.y.pos (ts := ⟨ts.e4, 0, ts.e2, ts.e1⟩) (perm_mem hord) ?_ hr
  intro ie hie o o' ho
  obtain ⟨ia, ib, ic⟩ := mm_inside h hs h2 h1 hst hie
  have xa := axes_of h.a.pos h.a.fits ia
  have xb := axes_of h.b.pos h.b.fits ib
  have xc := axes_of h.c.pos h.c.fits ic
  have xy := axes_of h.y.pos h.y.fits hie
  have hok := mm_tileOk h hs h2 h1 hst xa xb xc xy
  obtain ⟨_, _, _, hT, _, _, _⟩ := mm_tiles h hs h2 h1 hst xy
  have hm : matmulStep op g w (g.splits ts) ie o =
      (op (tileTensor (prepareSplit g.za ⟨ts.e4, 0, ts.e2, 0⟩) (idxA ie))
        (tileTensor (prepareSplit g.zb ⟨ts.e4, 0, 0, ts.e1⟩) (idxB g.stacked ie))
        (tileTensor (prepareSplit g.zc ⟨ts.e4, 0, 0, ts.e1⟩) (idxB g.stacked ie))
        (tileTensor (prepareSplit g.zy ⟨ts.e4, 0, ts.e2, ts.e1⟩) ie)
        (inputTile (prepareSplit g.za ⟨ts.e4, 0, ts.e2, 0⟩) (idxA ie) g.a (w.a ie))
        (inputTile (prepareSplit g.zb ⟨ts.e4, 0, 0, ts.e1⟩) (idxB g.stacked ie) g.b (w.b ie))
        (inputTile (prepareSplit g.zc ⟨ts.e4, 0, 0, ts.e1⟩) (idxB g.stacked ie) g.c (w.c ie))
        (outputTile (prepareSplit g.zy ⟨ts.e4, 0, ts.e2, ts.e1⟩) ie o (w.y ie))).map fun y =>
      storeTile (prepareSplit g.zy ⟨ts.e4, 0, ts.e2, ts.e1⟩) ie y o := rfl
  rw [hm] at ho
  obtain ⟨y, hy, rfl⟩ := Option.map_eq_some_iff.1 ho
  have sh : ∀ z ts ie, (tileTensor (prepareSplit z ts) ie).shape =
      tileDescAt (prepareSplit z ts) ie := fun _ _ _ => rfl
  have hc := hop _ _ _ _ _ _ _ _ _ hok (by
    rw [sh, sh, sh, sh, prepared_desc h.a xa rfl, prepared_desc h.b xb rfl,
      prepared_desc h.c xc rfl, prepared_desc h.y xy rfl]
    exact hT) hy
  rw [sh, sh, sh, sh, prepared_desc h.a xa rfl, prepared_desc h.b xb rfl,
    prepared_desc h.c xc rfl, prepared_desc h.y xy rfl] at hc
  refine prepared_store h.y xy rfl hc ?_
  intro l hl
  exact mm_values h hs h2 h1 hst xa xb xc xy _ _ _ _ _ _ hl

/-! ### The two products -/

theorem select_keeps {lim : Limits} {inc : Include} {s ts t : Quad}
    (h : selectTileSizes lim inc s ts = some t) :
    (inc.e2 = false → t.e2 = ts.e2) ∧ (inc.e1 = false → t.e1 = ts.e1) := by
  unfold selectTileSizes at h
  dsimp only at h
  split at h
  · cases h
  · split at h
    · simp only [Option.some.injEq] at h
      subst h
      exact ⟨fun _ => rfl, fun _ => rfl⟩
    · simp only [Option.some.injEq] at h
      subst h
      exact ⟨fun e => by simp [e], fun e => by simp [e]⟩

theorem seqSizes_whole {α : Type} {lim : Limits} {ta tb : Bool} {g : MMArgs α} {ts : Quad}
    (h : seqMatMulSizes lim ta tb g = some ts) :
    (ta = true → ts.e2 = 0) ∧ (tb = true → ts.e1 = 0) := by
  unfold seqMatMulSizes at h
  obtain ⟨t1, h1, h⟩ := Option.bind_eq_some_iff.1 h
  obtain ⟨t2, h2, h⟩ := Option.bind_eq_some_iff.1 h
  have k1 := select_keeps h1
  have k2 := select_keeps h2
  have k3 := select_keeps h
  constructor
  · intro e
    rw [k3.1 (by simp [incY, e]), k2.1 (by simp [incB]), k1.1 (by simp [incA, e])]; rfl
  · intro e
    rw [k3.2 (by simp [incY, e]), k2.2 (by simp [incB, e]), k1.2 (by simp [incA])]; rfl

theorem seqMatMul_sound {α : Type} [CommSemiring α] {ta tb : Bool} {op : MatMul α}
    (hop : MatMulOp ZTensor.shape MMOk ta tb op) {lim : Limits} {g : MMArgs α}
    (h : MMOk g.za g.zb g.zc g.zy)
    (hs : MatMulShapes ta tb g.za.shape g.zb.shape g.zc.shape g.zy.shape) {w : MMOwn α}
    {out out' : Buf α} (hr : seqMatMul lim ta tb op g w out = some out') :
    Computed g.zy.shape (matmulVal ta tb g.za.shape g.zb.shape g.zc.shape g.a g.b g.c) out out' := by
  unfold seqMatMul at hr
  obtain ⟨ts, hts, hr⟩ := Option.bind_eq_some_iff.1 hr
  obtain ⟨h2, h1⟩ := seqSizes_whole hts
  dsimp only at hr
  split at hr
  · exact hop _ _ _ _ _ _ _ _ _ h hs hr
  · exact matmulTiled_sound hop h hs h2 h1 (List.Perm.refl _) hr

theorem seqMatMulOn_op {α : Type} [CommSemiring α] {ta tb : Bool} {op : MatMul α}
    (hop : MatMulOp ZTensor.shape MMOk ta tb op) (lim : Limits) (w : MMOwn α) :
    MatMulOp ZTensor.shape MMOk ta tb (seqMatMulOn lim ta tb op w) := by
  intro za zb zc zy a b c out out' hok hs hr
  exact seqMatMul_sound hop (g := ⟨za, zb, zc, zy, a, b, c⟩) hok hs hr

theorem ompMatMul_sound {α : Type} [CommSemiring α] {op : MatMul α}
    (hop : MatMulOp ZTensor.shape MMOk false false op) {lim : Limits} {threads : ℕ} {g : MMArgs α}
    (h : MMOk g.za g.zb g.zc g.zy)
    (hs : MatMulShapes false false g.za.shape g.zb.shape g.zc.shape g.zy.shape) {w : MMOwn α}
    {order : List Quad}
    (hord : ∀ ts, ompMatMulSizes lim threads g = some ts →
      order.Perm (allTiles (g.splits ts).bounds))
    {out out' : Buf α} (hr : ompMatMul lim threads op g w order out = some out') :
    Computed g.zy.shape (matmulVal false false g.za.shape g.zb.shape g.zc.shape g.a g.b g.c)
      out out' := by
  unfold ompMatMul at hr
  obtain ⟨ts, hts, hr⟩ := Option.bind_eq_some_iff.1 hr
  dsimp only at hr
  split at hr
  · exact hop _ _ _ _ _ _ _ _ _ h hs hr
  · exact matmulTiled_sound hop h hs (by simp) (by simp) (hord ts hts) hr

end Verif.Zdnnx
