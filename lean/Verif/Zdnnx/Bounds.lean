import Verif.Zdnnx.MatMul

/-! The tiles that the sequential elementwise operations make respect the limits of the
accelerator. -/

namespace Verif.Zdnnx

theorem clampAll_dim {lim : Limits} (hd : Positive lim.dim) {s : Quad} :
    Below (clampAll lim includeAll s) lim.dim := by
  obtain ⟨d4, d3, d2, d1⟩ := hd
  have h4 : (clampE4 lim includeAll s s).e4 ≤ lim.dim.e4 ∧
      (clampE4 lim includeAll s s).e1 = s.e1 ∧ (clampE4 lim includeAll s s).e3 = s.e3 ∧
      (clampE4 lim includeAll s s).e2 = s.e2 := by
    unfold clampE4 includeAll
    dsimp only
    split
    · exact ⟨le_rfl, rfl, rfl, rfl⟩
    · rename_i h
      refine ⟨?_, rfl, rfl, rfl⟩
      by_contra hc
      exact h ⟨rfl, by omega⟩
  generalize ht : clampE4 lim includeAll s s = t at h4
  have h1 : (clampE1 lim includeAll s t).e4 ≤ lim.dim.e4 ∧
      (clampE1 lim includeAll s t).e1 ≤ lim.dim.e1 ∧ (clampE1 lim includeAll s t).e3 = s.e3 ∧
      (clampE1 lim includeAll s t).e2 = s.e2 := by
    unfold clampE1 includeAll
    dsimp only
    split
    · exact ⟨d4, le_rfl, h4.2.2.1, h4.2.2.2⟩
    · rename_i h
      refine ⟨h4.1, ?_, h4.2.2.1, h4.2.2.2⟩
      by_contra hc
      exact h ⟨rfl, by omega⟩
  generalize hu : clampE1 lim includeAll s t = u at h1
  have h3 : (clampE3 lim includeAll s u).e4 ≤ lim.dim.e4 ∧
      (clampE3 lim includeAll s u).e1 ≤ lim.dim.e1 ∧
      (clampE3 lim includeAll s u).e3 ≤ lim.dim.e3 ∧
      (clampE3 lim includeAll s u).e2 = s.e2 := by
    unfold clampE3 includeAll
    dsimp only
    split
    · refine ⟨d4, ?_, le_rfl, h1.2.2.2⟩
      dsimp only
      split <;> omega
    · rename_i h
      refine ⟨h1.1, h1.2.1, ?_, h1.2.2.2⟩
      by_contra hc
      exact h ⟨rfl, by omega⟩
  generalize hv : clampE3 lim includeAll s u = v at h3
  have e : clampAll lim includeAll s = clampE2 lim includeAll s
    (clampE3 lim includeAll s (clampE1 lim includeAll s (clampE4 lim includeAll s s))) := rfl
  have h2 : Below (clampE2 lim includeAll s v) lim.dim := by
    unfold clampE2 includeAll
    dsimp only
    split
    · refine ⟨d4, d3, le_rfl, ?_⟩
      dsimp only
      split <;> omega
    · rename_i h
      refine ⟨h3.1, h3.2.2.1, ?_, h3.2.1⟩
      by_contra hc
      exact h ⟨rfl, by omega⟩
  rw [e, ht, hu, hv]
  exact h2

theorem clampAll_pos {lim : Limits} (hd : Positive lim.dim) {s : Quad} (hp : Positive s) :
    Positive (clampAll lim includeAll s) := by
  obtain ⟨d4, d3, d2, d1⟩ := hd
  have step : ∀ t, Positive t → Positive (clampE4 lim includeAll s t) ∧
      Positive (clampE1 lim includeAll s t) ∧ Positive (clampE3 lim includeAll s t) ∧
      Positive (clampE2 lim includeAll s t) := by
    rintro t ⟨p4, p3, p2, p1⟩
    unfold clampE4 clampE1 clampE3 clampE2 includeAll
    dsimp only
    refine ⟨?_, ?_, ?_, ?_⟩
    · split
      · exact ⟨d4, p3, p2, p1⟩
      · exact ⟨p4, p3, p2, p1⟩
    · split
      · exact ⟨Nat.one_pos, p3, p2, d1⟩
      · exact ⟨p4, p3, p2, p1⟩
    · split
      · refine ⟨Nat.one_pos, d3, p2, ?_⟩
        dsimp only; split <;> omega
      · exact ⟨p4, p3, p2, p1⟩
    · split
      · refine ⟨Nat.one_pos, Nat.one_pos, d2, ?_⟩
        dsimp only; split <;> omega
      · exact ⟨p4, p3, p2, p1⟩
  exact (step _ (step _ (step _ (step _ hp).1).2.1).2.2.1).2.2.2

theorem shrinkOne_pos {mx total v : ℕ} (h0 : 0 < mx) (ht : 0 < total) (hv : 0 < v) :
    0 < shrinkOne true mx total v := by
  unfold shrinkOne
  rw [if_neg (by simp)]
  split
  · exact hv
  · exact cdiv_pos hv (cdiv_pos ht h0)

theorem shrink_pos {mx : ℕ} (h0 : 0 < mx) {t : Quad} (hp : Positive t) :
    Positive (shrink mx includeAll t) := by
  obtain ⟨p4, p3, p2, p1⟩ := hp
  unfold shrink includeAll
  dsimp only
  split
  · exact ⟨p4, p3, p2, p1⟩
  · rename_i v1
    have g1 := shrinkOne_pos (v := t.e4) h0 (lt_trans h0 (not_le.1 v1)) p4
    split
    · exact ⟨g1, p3, p2, p1⟩
    · rename_i v2
      have g2 := shrinkOne_pos (v := t.e1) h0 (lt_trans h0 (not_le.1 v2)) p1
      split
      · exact ⟨g1, p3, p2, g2⟩
      · rename_i v3
        have g3 := shrinkOne_pos (v := t.e3) h0 (lt_trans h0 (not_le.1 v3)) p3
        split
        · exact ⟨g1, g3, p2, g2⟩
        · rename_i v4
          have g4 := shrinkOne_pos (v := t.e2) h0 (lt_trans h0 (not_le.1 v4)) p2
          exact ⟨g1, g3, g4, g2⟩

theorem innerTile_le {u s z m : ℕ} (hu : 0 < u) (hm : m % u = 0) (hz : 0 < z) (h : z ≤ m) :
    innerTile u s z ≤ m := by
  unfold innerTile
  rw [if_neg (by omega)]
  split
  · obtain ⟨c, rfl⟩ := Nat.dvd_of_mod_eq_zero hm
    have : cdiv z u ≤ c := (cdiv_le_iff hu).2 h
    rw [Nat.mul_comm u]
    exact Nat.mul_le_mul_right u this
  · exact h

/-- The sizes of the tiles. -/
theorem select_within {lim : Limits} (hd : Positive lim.dim) (h2 : lim.dim.e2 % 32 = 0)
    (h1 : lim.dim.e1 % 64 = 0) (hm : 0 < lim.size) {s ts : Quad} (hp : Positive s)
    (h : selectTileSizes lim includeAll s noSizes = some ts) :
    Below (tileShapeOf s ts) lim.dim := by
  unfold selectTileSizes at h
  dsimp only at h
  rw [if_neg (by omega)] at h
  have hc := clampAll_dim hd (s := s)
  have hcp := clampAll_pos hd hp
  set c := clampAll lim includeAll s with hcd
  have hle := shrink_le hm includeAll c
  have hsp := shrink_pos hm hcp
  set t := shrink lim.size includeAll c with htd
  have ht : Below t lim.dim := by
    obtain ⟨a, b, c', d⟩ := hc
    exact ⟨le_trans hle.1 a, le_trans hle.2.1 b, le_trans hle.2.2.1 c', le_trans hle.2.2.2 d⟩
  by_cases e : t = s
  · rw [if_pos e] at h
    simp only [Option.some.injEq] at h
    subst h
    rw [e] at ht
    exact ht
  · rw [if_neg e] at h
    simp only [includeAll, if_true, Option.some.injEq] at h
    have hts : ts = t := h.symm
    subst hts
    obtain ⟨q4, q3, q2, q1⟩ := hsp
    refine ⟨?_, ?_, innerTile_le (by omega) h2 q2 ht.2.2.1, innerTile_le (by omega) h1 q1 ht.2.2.2⟩
    · show outerTile _ _ ≤ _
      unfold outerTile; rw [if_neg (by omega)]; exact ht.1
    · show outerTile _ _ ≤ _
      unfold outerTile; rw [if_neg (by omega)]; exact ht.2.1

theorem tile_below {z : ZTensor} (hz : Plain z) {ts ie m : Quad} (hm : Positive m)
    (h : Axes z ts ie) (hb : Below (tileShapeOf z.shape ts) m) :
    Below (tileDescAt (splitOf z ts) ie) m := by
  have hT := tileSizes_of h hz.fits
  obtain ⟨m4, m3, m2, m1⟩ := hm
  have key : ∀ u s t d n i T k, Ax u s t d n i → TileSize s t d i T → t ≤ k → 0 < k → T ≤ k := by
    intro u s t d n i T k ha hT hk k0
    rcases hT with hT | hT
    · rcases ha.dd with hd | hd <;> omega
    · omega
  exact ⟨key _ _ _ _ _ _ _ _ h.a4 hT.t4 hb.1 m4, key _ _ _ _ _ _ _ _ h.a3 hT.t3 hb.2.1 m3,
    key _ _ _ _ _ _ _ _ h.a2 hT.t2 hb.2.2.1 m2, key _ _ _ _ _ _ _ _ h.a1 hT.t1 hb.2.2.2 m1⟩

theorem runTiles_congr {α : Type} {f g : Quad → Buf α → Option (Buf α)} {l : List Quad}
    (h : ∀ ie ∈ l, ∀ out, f ie out = g ie out) (out : Buf α) :
    runTiles f l out = runTiles g l out := by
  induction l generalizing out with
  | nil => rfl
  | cons ie rest ih =>
    simp only [runTiles]
    rw [h ie (by simp) out]
    cases g ie out with
    | none => rfl
    | some o => exact ih (fun ie' hie => h ie' (by simp [hie])) o

/-- When there is a single tile, it is the whole tensor. -/
theorem oneTile_below {z : ZTensor} (hz : Plain z) {ts m : Quad}
    (hn : (prepareSplit z ts).noSplit = true) (hb : Below (tileShapeOf z.shape ts) m) :
    Below z.shape m := by
  rcases prepared z ts hz with e | ⟨_, hone⟩
  · rw [e] at hn; simp [splitOf] at hn
  · have hx : Axes z ts ⟨0, 0, 0, 0⟩ := axes_of hz.pos hz.fits (by
      rw [hone]; exact ⟨Nat.one_pos, Nat.one_pos, Nat.one_pos, Nat.one_pos⟩)
    have ht := (one_tile hx hone).1
    rw [← ht]
    exact ⟨le_trans (min_le_left _ _) hb.1, le_trans (min_le_left _ _) hb.2.1,
      le_trans (min_le_left _ _) hb.2.2.1, le_trans (min_le_left _ _) hb.2.2.2⟩

theorem seqUnary_within {α : Type} {lim : Limits} (hd : Positive lim.dim)
    (h2 : lim.dim.e2 % 32 = 0) (h1 : lim.dim.e1 % 64 = 0) (hm : 0 < lim.size) {op op' : Unary α}
    (he : ∀ s, Below s lim.dim → op s = op' s) {z : ZTensor} (hz : Plain z)
    (ownX ownY : Quad → Buf α) (x out : Buf α) :
    seqUnary lim op z ownX ownY x out = seqUnary lim op' z ownX ownY x out := by
  unfold seqUnary
  cases hts : selectTileSizes lim includeAll z.shape noSizes with
  | none => rfl
  | some ts =>
    simp only [Option.bind_some]
    have hb := select_within hd h2 h1 hm hz.pos hts
    unfold unaryTiled
    cases hn : (prepareSplit z ts).noSplit
    · rw [if_neg (by simp), if_neg (by simp), prepareSplit_eq z ts hn]
      apply runTiles_congr
      intro ie hie o
      have hx := axes_of hz.pos hz.fits (mem_allTiles.1 hie)
      unfold unaryStep
      rw [he _ (tile_below hz hd hx hb)]
    · rw [if_pos rfl, if_pos rfl, prepared_full, he _ (oneTile_below hz hn hb)]

theorem seqBinary_within {α : Type} {lim : Limits} (hd : Positive lim.dim)
    (h2 : lim.dim.e2 % 32 = 0) (h1 : lim.dim.e1 % 64 = 0) (hm : 0 < lim.size) {op op' : Binary α}
    (he : ∀ s, Below s lim.dim → op s = op' s) {z : ZTensor} (hz : Plain z)
    (ownA ownB ownY : Quad → Buf α) (a b out : Buf α) :
    seqBinary lim op z ownA ownB ownY a b out = seqBinary lim op' z ownA ownB ownY a b out := by
  unfold seqBinary
  cases hts : selectTileSizes lim includeAll z.shape noSizes with
  | none => rfl
  | some ts =>
    simp only [Option.bind_some]
    have hb := select_within hd h2 h1 hm hz.pos hts
    unfold binaryTiled
    cases hn : (prepareSplit z ts).noSplit
    · rw [if_neg (by simp), if_neg (by simp), prepareSplit_eq z ts hn]
      apply runTiles_congr
      intro ie hie o
      have hx := axes_of hz.pos hz.fits (mem_allTiles.1 hie)
      unfold binaryStep
      rw [he _ (tile_below hz hd hx hb)]
    · rw [if_pos rfl, if_pos rfl, prepared_full, he _ (oneTile_below hz hn hb)]

end Verif.Zdnnx
