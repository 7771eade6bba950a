import Verif.Zdnnx.Axis

/-! Where the cells of a tile come from, and where they go to. -/

namespace Verif.Zdnnx

/-- The index in the full tensor of index `l` of the tile `ie`. -/
def glob (t ie l : Quad) : Quad :=
  ⟨ie.e4 * t.e4 + l.e4, ie.e3 * t.e3 + l.e3, ie.e2 * t.e2 + l.e2, ie.e1 * t.e1 + l.e1⟩

/-- The split of a tensor into several tiles. -/
def splitOf (z : ZTensor) (ts : Quad) : Split :=
  let t := tileShapeOf z.shape ts
  let n := numTilesOf z.shape t
  let d := descOf z.layout t
  let r := reuseAxisOf z.shape d
  ⟨z, n, t, lastTileOf z.shape t n, d, false, r.isSome, r⟩

theorem prepareSplit_cases (z : ZTensor) (ts : Quad) :
    prepareSplit z ts = oneTile z ∨ prepareSplit z ts = splitOf z ts := by
  unfold prepareSplit
  by_cases h : z.layout = .other ∨ z.dtype = .other
  · rw [if_pos h]; exact Or.inl rfl
  · rw [if_neg h]
    unfold splitSupported
    dsimp only
    split
    · exact Or.inl rfl
    · split
      · exact Or.inl rfl
      · exact Or.inr rfl

theorem prepareSplit_eq (z : ZTensor) (ts : Quad) (h : (prepareSplit z ts).noSplit = false) :
    prepareSplit z ts = splitOf z ts := by
  rcases prepareSplit_cases z ts with h1 | h1
  · rw [h1] at h; simp [oneTile] at h
  · exact h1

/-- The four dimensions of a tile. -/
structure Axes (z : ZTensor) (ts ie : Quad) : Prop where
  a4 : Ax 1 z.shape.e4 (tileShapeOf z.shape ts).e4 (descOf z.layout (tileShapeOf z.shape ts)).e4
    (splitOf z ts).numTiles.e4 ie.e4
  a3 : Ax 1 z.shape.e3 (tileShapeOf z.shape ts).e3 (descOf z.layout (tileShapeOf z.shape ts)).e3
    (splitOf z ts).numTiles.e3 ie.e3
  a2 : Ax 32 z.shape.e2 (tileShapeOf z.shape ts).e2 (descOf z.layout (tileShapeOf z.shape ts)).e2
    (splitOf z ts).numTiles.e2 ie.e2
  a1 : Ax 64 z.shape.e1 (tileShapeOf z.shape ts).e1 (descOf z.layout (tileShapeOf z.shape ts)).e1
    (splitOf z ts).numTiles.e1 ie.e1

theorem desc_cases (l : Layout) (s t : Quad) (h : descOf l s = s) :
    ((descOf l t).e4 = t.e4 ∨ ((descOf l t).e4 = 1 ∧ s.e4 = 1)) ∧
    ((descOf l t).e3 = t.e3 ∨ ((descOf l t).e3 = 1 ∧ s.e3 = 1)) ∧
    ((descOf l t).e2 = t.e2 ∨ ((descOf l t).e2 = 1 ∧ s.e2 = 1)) ∧
    ((descOf l t).e1 = t.e1 ∨ ((descOf l t).e1 = 1 ∧ s.e1 = 1)) := by
  obtain ⟨s4, s3, s2, s1⟩ := s
  cases l <;> simp [descOf, transformedDesc, preDesc] at h ⊢ <;> omega

theorem axes_of {z : ZTensor} {ts ie : Quad} (hp : Positive z.shape) (hf : Fits z)
    (hv : Inside ie (splitOf z ts).numTiles) : Axes z ts ie := by
  obtain ⟨p4, p3, p2, p1⟩ := hp
  obtain ⟨v4, v3, v2, v1⟩ := hv
  obtain ⟨d4, d3, d2, d1⟩ := desc_cases z.layout z.shape (tileShapeOf z.shape ts) hf
  refine ⟨⟨Nat.one_pos, p4, ?_, rfl, ?_, d4, v4⟩, ⟨Nat.one_pos, p3, ?_, rfl, ?_, d3, v3⟩,
    ⟨by omega, p2, ?_, rfl, ?_, d2, v2⟩, ⟨by omega, p1, ?_, rfl, ?_, d1, v1⟩⟩
  · simp only [tileShapeOf]; rw [outerTile_eq]; exact innerTile_pos Nat.one_pos p4
  · exact Or.inl (Nat.mod_one _)
  · simp only [tileShapeOf]; rw [outerTile_eq]; exact innerTile_pos Nat.one_pos p3
  · exact Or.inl (Nat.mod_one _)
  · exact innerTile_pos (by omega) p2
  · exact innerTile_al
  · exact innerTile_pos (by omega) p1
  · exact innerTile_al

/-- The shape of the tile at `ie`. -/
def trueTile (s t ie : Quad) : Quad :=
  ⟨min t.e4 (s.e4 - ie.e4 * t.e4), min t.e3 (s.e3 - ie.e3 * t.e3),
   min t.e2 (s.e2 - ie.e2 * t.e2), min t.e1 (s.e1 - ie.e1 * t.e1)⟩

theorem exactTile_eq {z : ZTensor} {ts ie : Quad} (h : Axes z ts ie) :
    exactTile (splitOf z ts) ie = trueTile z.shape (tileShapeOf z.shape ts) ie := by
  unfold exactTile trueTile tileAlong
  rw [← h.a4.exact_eq, ← h.a3.exact_eq, ← h.a2.exact_eq, ← h.a1.exact_eq]
  rfl

theorem desc_trueTile {z : ZTensor} {ts ie : Quad} (h : Axes z ts ie) (hf : Fits z) :
    descOf z.layout (trueTile z.shape (tileShapeOf z.shape ts) ie) =
      trueTile z.shape (tileShapeOf z.shape ts) ie := by
  have hp := And.intro h.a4.s0 (And.intro h.a3.s0 (And.intro h.a2.s0 h.a1.s0))
  have hq := And.intro h.a4.t0 (And.intro h.a3.t0 (And.intro h.a2.t0 h.a1.t0))
  have ho := And.intro h.a4.off_lt (And.intro h.a3.off_lt (And.intro h.a2.off_lt h.a1.off_lt))
  unfold Fits at hf
  generalize tileShapeOf z.shape ts = t at *
  obtain ⟨⟨s4, s3, s2, s1⟩, l, dt⟩ := z
  obtain ⟨t4, t3, t2, t1⟩ := t
  dsimp only at hf hp hq ho
  cases l <;> simp [descOf, transformedDesc, preDesc, trueTile] at hf ⊢ <;> omega

/-- The size of the tile `ie` in each dimension of a descriptor. -/
structure TileSizes (z : ZTensor) (ts ie T : Quad) : Prop where
  t4 : TileSize z.shape.e4 (tileShapeOf z.shape ts).e4
    (descOf z.layout (tileShapeOf z.shape ts)).e4 ie.e4 T.e4
  t3 : TileSize z.shape.e3 (tileShapeOf z.shape ts).e3
    (descOf z.layout (tileShapeOf z.shape ts)).e3 ie.e3 T.e3
  t2 : TileSize z.shape.e2 (tileShapeOf z.shape ts).e2
    (descOf z.layout (tileShapeOf z.shape ts)).e2 ie.e2 T.e2
  t1 : TileSize z.shape.e1 (tileShapeOf z.shape ts).e1
    (descOf z.layout (tileShapeOf z.shape ts)).e1 ie.e1 T.e1

theorem tileDescAt_split (z : ZTensor) (ts ie : Quad) :
    tileDescAt (splitOf z ts) ie =
      if isFullTile (splitOf z ts) ie then descOf z.layout (tileShapeOf z.shape ts)
      else descOf z.layout (exactTile (splitOf z ts) ie) := rfl

theorem tileDescAt_true {z : ZTensor} {ts ie : Quad} (h : Axes z ts ie) (hf : Fits z)
    (hn : isFullTile (splitOf z ts) ie = false) :
    tileDescAt (splitOf z ts) ie = trueTile z.shape (tileShapeOf z.shape ts) ie := by
  rw [tileDescAt_split, hn, exactTile_eq h, desc_trueTile h hf]; rfl

theorem tileSizes_of {z : ZTensor} {ts ie : Quad} (h : Axes z ts ie) (hf : Fits z) :
    TileSizes z ts ie (tileDescAt (splitOf z ts) ie) := by
  cases hn : isFullTile (splitOf z ts) ie
  · rw [tileDescAt_true h hf hn]
    exact ⟨Or.inr rfl, Or.inr rfl, Or.inr rfl, Or.inr rfl⟩
  · rw [tileDescAt_split, hn]
    exact ⟨Or.inl rfl, Or.inl rfl, Or.inl rfl, Or.inl rfl⟩

theorem tile_positive {z : ZTensor} {ts ie T : Quad} (h : Axes z ts ie)
    (hT : TileSizes z ts ie T) : Positive T :=
  ⟨h.a4.tile_pos hT.t4, h.a3.tile_pos hT.t3, h.a2.tile_pos hT.t2, h.a1.tile_pos hT.t1⟩

/-- The page of the full tensor that holds index `l` of the tile. -/
theorem pageOf_glob {z : ZTensor} {ts ie : Quad} (h : Axes z ts ie) (l : Quad) :
    pageOf z.shape (glob (tileShapeOf z.shape ts) ie l) =
      pageAt z.shape (ie.e4 * (splitOf z ts).tileDesc.e4 + l.e4)
        (l.e1 / 64 + ie.e1 * cdiv (splitOf z ts).tileDesc.e1 64)
        (l.e3 + ie.e3 * (splitOf z ts).tileDesc.e3)
        (l.e2 / 32 + ie.e2 * cdiv (splitOf z ts).tileDesc.e2 32) := by
  have h4 := h.a4.off_div l.e4
  have h3 := h.a3.off_div l.e3
  simp only [Nat.div_one, cdiv_one_right] at h4 h3
  unfold pageOf glob
  dsimp only
  rw [h.a1.off_div, h.a2.off_div, h4, h3, Nat.add_comm l.e4]
  rfl

theorem inPage_glob {z : ZTensor} {ts ie : Quad} (h : Axes z ts ie) (l : Quad) :
    inPage (glob (tileShapeOf z.shape ts) ie l) = inPage l := by
  unfold inPage glob
  dsimp only
  rw [h.a1.off_mod, h.a2.off_mod]

/-! ### Copies -/

theorem mem_pagePositions {d : Quad} {p6 p5 p4 p3 : ℕ} :
    (p6, p5, p4, p3) ∈ pagePositions d ↔
      p6 < d.e4 ∧ p5 < cdiv d.e1 64 ∧ p4 < d.e3 ∧ p3 < cdiv d.e2 32 := by
  unfold pagePositions
  simp only [List.mem_flatMap, List.mem_map, List.mem_range, Prod.mk.injEq]
  constructor
  · rintro ⟨a, ha, b, hb, c, hc, e, he, rfl, rfl, rfl, rfl⟩
    exact ⟨ha, hb, hc, he⟩
  · rintro ⟨ha, hb, hc, he⟩
    exact ⟨p6, ha, p5, hb, p4, hc, p3, he, rfl, rfl, rfl, rfl⟩

theorem foldl_copy {α : Type} (src : Buf α) (l : List (ℕ × ℕ)) (dst : Buf α) (a : ℕ) :
    ((∀ p ∈ l, p.2 ≠ a / 2048) →
      l.foldl (fun b p => copyPage src p.1 p.2 b) dst a = dst a) ∧
    ((∃ p ∈ l, p.2 = a / 2048) → ∃ p ∈ l, p.2 = a / 2048 ∧
      l.foldl (fun b p => copyPage src p.1 p.2 b) dst a = src (2048 * p.1 + a % 2048)) := by
  induction l using List.reverseRecOn with
  | nil => exact ⟨fun _ => rfl, fun ⟨p, hp, _⟩ => absurd hp (List.not_mem_nil)⟩
  | append_singleton l q ih =>
    rw [List.foldl_append]
    simp only [List.foldl_cons, List.foldl_nil]
    by_cases hq : a / 2048 = q.2
    · constructor
      · intro h
        exact absurd hq.symm (h q (by simp))
      · intro _
        refine ⟨q, by simp, hq.symm, ?_⟩
        unfold copyPage
        rw [if_pos hq]
    · have e : copyPage src q.1 q.2 (l.foldl (fun b p => copyPage src p.1 p.2 b) dst) a =
          l.foldl (fun b p => copyPage src p.1 p.2 b) dst a := by
        unfold copyPage; rw [if_neg hq]
      rw [e]
      constructor
      · intro h
        exact ih.1 fun p hp => h p (by simp [hp])
      · rintro ⟨p, hp, hpa⟩
        have hpl : p ∈ l := by
          rcases List.mem_append.1 hp with h | h
          · exact h
          · rw [List.mem_singleton] at h
            rw [h] at hpa
            exact absurd hpa.symm hq
        obtain ⟨p', hp', h1, h2⟩ := ih.2 ⟨p, hpl, hpa⟩
        exact ⟨p', by simp [hp'], h1, h2⟩

theorem foldl_copy_swap {α : Type} (src : Buf α) (l : List (ℕ × ℕ)) (dst : Buf α) :
    l.foldl (fun b p => copyPage src p.2 p.1 b) dst =
      (l.map Prod.swap).foldl (fun b p => copyPage src p.1 p.2 b) dst := by
  rw [List.foldl_map]; rfl

/-- The pages that the copy loops visit. -/
theorem mem_pagePairs {z : ZTensor} {ts ie : Quad} (h : Axes z ts ie) (hf : Fits z)
    {q p : ℕ} :
    (q, p) ∈ pagePairs (splitOf z ts) ie ↔
      ∃ l, Padded l (tileDescAt (splitOf z ts) ie) ∧
        l.e4 < (tileDescAt (splitOf z ts) ie).e4 ∧
        q = pageOf (tileDescAt (splitOf z ts) ie) l ∧
        p = pageOf z.shape (glob (tileShapeOf z.shape ts) ie l) := by
  unfold pagePairs
  simp only [List.mem_map, Prod.mk.injEq]
  constructor
  · rintro ⟨⟨p6, p5, p4, p3⟩, hm, hq, hp⟩
    rw [mem_pagePositions] at hm
    obtain ⟨m6, m5, m4, m3⟩ := hm
    refine ⟨⟨p6, p4, p3 * 32, p5 * 64⟩, ⟨m4, ?_, ?_⟩, m6, ?_, ?_⟩
    · dsimp only; rw [Nat.mul_div_cancel _ (by omega)]; exact m3
    · dsimp only; rw [Nat.mul_div_cancel _ (by omega)]; exact m5
    · rw [← hq]; unfold pageOf; dsimp only
      rw [Nat.mul_div_cancel _ (by omega), Nat.mul_div_cancel _ (by omega)]
    · rw [pageOf_glob h, ← hp]; dsimp only
      rw [Nat.mul_div_cancel _ (by omega), Nat.mul_div_cancel _ (by omega)]
      rfl
  · rintro ⟨l, ⟨m4, m3, m5⟩, m6, hq, hp⟩
    refine ⟨(l.e4, l.e1 / 64, l.e3, l.e2 / 32), mem_pagePositions.2 ⟨m6, m5, m4, m3⟩, ?_, ?_⟩
    · rw [hq]; rfl
    · rw [hp, pageOf_glob h]; rfl

/-- The cell of the full tensor that belongs to cell `a` of the tile with descriptor `T`. -/
def cellMap (s t ie T : Quad) (a : ℕ) : ℕ := addr s (glob t ie (cellIdx T a))

theorem cellMap_div_mod {z : ZTensor} {ts ie : Quad} (h : Axes z ts ie) (T : Quad) (a : ℕ) :
    cellMap z.shape (tileShapeOf z.shape ts) ie T a =
      2048 * pageOf z.shape (glob (tileShapeOf z.shape ts) ie (cellIdx T a)) + a % 2048 := by
  unfold cellMap
  rw [addr_eq, inPage_glob h]
  congr 1
  rw [← addr_mod T (cellIdx T a), addr_cellIdx]

theorem cellIdx_page {T : Quad} (hT : Positive T) {l : Quad} (hl : Padded l T) {a : ℕ}
    (h : a / 2048 = pageOf T l) :
    pageOf T (cellIdx T a) = pageOf T l ∧
      (cellIdx T a).e4 = l.e4 ∧ (cellIdx T a).e3 = l.e3 ∧
      (cellIdx T a).e2 / 32 = l.e2 / 32 ∧ (cellIdx T a).e1 / 64 = l.e1 / 64 := by
  have h1 : pageOf T (cellIdx T a) = a / 2048 := by
    rw [← addr_div, addr_cellIdx]
  have hc := padded_cellIdx hT a
  have e : pageOf T (cellIdx T a) = pageOf T l := by rw [h1, h]
  refine ⟨e, ?_⟩
  have s1 := pageAt_split T (cellIdx T a).e4 ((cellIdx T a).e1 / 64) (cellIdx T a).e3
    ((cellIdx T a).e2 / 32) hc.2.1 hc.1 hc.2.2
  have s2 := pageAt_split T l.e4 (l.e1 / 64) l.e3 (l.e2 / 32) hl.2.1 hl.1 hl.2.2
  unfold pageOf at e
  rw [e] at s1
  exact ⟨s1.2.2.2.symm.trans s2.2.2.2, s1.2.1.symm.trans s2.2.1, s1.1.symm.trans s2.1,
    s1.2.2.1.symm.trans s2.2.2.1⟩

theorem pageOf_glob_congr {z : ZTensor} {ts ie : Quad} (h : Axes z ts ie) {l l' : Quad}
    (h4 : l.e4 = l'.e4) (h3 : l.e3 = l'.e3) (h2 : l.e2 / 32 = l'.e2 / 32)
    (h1 : l.e1 / 64 = l'.e1 / 64) :
    pageOf z.shape (glob (tileShapeOf z.shape ts) ie l) =
      pageOf z.shape (glob (tileShapeOf z.shape ts) ie l') := by
  rw [pageOf_glob h, pageOf_glob h, h4, h3, h2, h1]

theorem copyToTile_cell {α : Type} {z : ZTensor} {ts ie : Quad} (h : Axes z ts ie) (hf : Fits z)
    (full own : Buf α) {a : ℕ} (ha : a < cells (tileDescAt (splitOf z ts) ie)) :
    copyToTile (splitOf z ts) ie full own a =
      full (cellMap z.shape (tileShapeOf z.shape ts) ie (tileDescAt (splitOf z ts) ie) a) := by
  have hT := tile_positive h (tileSizes_of h hf)
  unfold copyToTile
  rw [foldl_copy_swap]
  set T := tileDescAt (splitOf z ts) ie with hTdef
  have hex : ∃ p ∈ (pagePairs (splitOf z ts) ie).map Prod.swap, p.2 = a / 2048 := by
    refine ⟨(pageOf z.shape (glob (tileShapeOf z.shape ts) ie (cellIdx T a)),
      pageOf T (cellIdx T a)), ?_, ?_⟩
    · rw [List.mem_map]
      refine ⟨(pageOf T (cellIdx T a), _), ?_, rfl⟩
      rw [mem_pagePairs h hf]
      exact ⟨cellIdx T a, padded_cellIdx hT a, cellIdx_e4_lt hT ha, rfl, rfl⟩
    · dsimp only; rw [← addr_div T, addr_cellIdx]
  obtain ⟨⟨p, q⟩, hm, hq, hr⟩ := (foldl_copy full _ own a).2 hex
  rw [hr, cellMap_div_mod h]
  rw [List.mem_map] at hm
  obtain ⟨⟨q', p'⟩, hm, he⟩ := hm
  simp only [Prod.swap_prod_mk, Prod.mk.injEq] at he
  obtain ⟨rfl, rfl⟩ := he
  rw [mem_pagePairs h hf] at hm
  obtain ⟨l, hl, _, hq', hp'⟩ := hm
  dsimp only at hq
  obtain ⟨_, e4, e3, e2, e1⟩ := cellIdx_page hT hl (hq.symm.trans hq')
  rw [hp', pageOf_glob_congr h e4 e3 e2 e1]

theorem copyToFull_cell {α : Type} {z : ZTensor} {ts ie : Quad} (h : Axes z ts ie) (hf : Fits z)
    (tile full : Buf α) (x : ℕ) :
    ((∀ a, a < cells (tileDescAt (splitOf z ts) ie) →
        cellMap z.shape (tileShapeOf z.shape ts) ie (tileDescAt (splitOf z ts) ie) a ≠ x) →
      copyToFull (splitOf z ts) ie tile full x = full x) ∧
    ((∃ a, a < cells (tileDescAt (splitOf z ts) ie) ∧
        cellMap z.shape (tileShapeOf z.shape ts) ie (tileDescAt (splitOf z ts) ie) a = x) →
      ∃ a, a < cells (tileDescAt (splitOf z ts) ie) ∧
        cellMap z.shape (tileShapeOf z.shape ts) ie (tileDescAt (splitOf z ts) ie) a = x ∧
        copyToFull (splitOf z ts) ie tile full x = tile a) := by
  have hT := tile_positive h (tileSizes_of h hf)
  set T := tileDescAt (splitOf z ts) ie with hTdef
  -- the cell of the tile in page `l` at the position of `x`
  have key : ∀ l, Padded l T → l.e4 < T.e4 →
      pageOf z.shape (glob (tileShapeOf z.shape ts) ie l) = x / 2048 →
      2048 * pageOf T l + x % 2048 < cells T ∧
      cellMap z.shape (tileShapeOf z.shape ts) ie T (2048 * pageOf T l + x % 2048) = x := by
    intro l hl h4 hp
    have hm := Nat.mod_lt x (show 0 < 2048 by omega)
    have hd : (2048 * pageOf T l + x % 2048) / 2048 = pageOf T l := by omega
    constructor
    · have := page_lt hl.2.1 hl.1 hl.2.2 h4
      unfold cells pageOf
      omega
    · obtain ⟨_, e4, e3, e2, e1⟩ := cellIdx_page hT hl hd
      rw [cellMap_div_mod h, pageOf_glob_congr h e4 e3 e2 e1, hp]
      omega
  constructor
  · intro hno
    apply (foldl_copy tile _ full x).1
    rintro ⟨q, p⟩ hm he
    rw [mem_pagePairs h hf] at hm
    obtain ⟨l, hl, h4, _, hp⟩ := hm
    have := key l hl h4 (hp.symm.trans he)
    exact hno _ this.1 this.2
  · rintro ⟨a, ha, hax⟩
    have hex : ∃ p ∈ pagePairs (splitOf z ts) ie, p.2 = x / 2048 := by
      refine ⟨(pageOf T (cellIdx T a), pageOf z.shape (glob (tileShapeOf z.shape ts) ie
        (cellIdx T a))), ?_, ?_⟩
      · rw [mem_pagePairs h hf]
        exact ⟨cellIdx T a, padded_cellIdx hT a, cellIdx_e4_lt hT ha, rfl, rfl⟩
      · dsimp only
        rw [cellMap_div_mod h] at hax
        have hm := Nat.mod_lt a (show 0 < 2048 by omega)
        omega
    obtain ⟨⟨q, p⟩, hm, hpx, hr⟩ := (foldl_copy tile _ full x).2 hex
    rw [mem_pagePairs h hf] at hm
    obtain ⟨l, hl, h4, hq, hp⟩ := hm
    have hk := key l hl h4 (hp.symm.trans hpx)
    refine ⟨_, hk.1, hk.2, ?_⟩
    unfold copyToFull
    rw [hr, hq]

/-! ### Sharing the full buffer -/

/-- The place of a tile that shares the full buffer, in pages. -/
theorem reuseOffset_eq {z : ZTensor} {ts ie : Quad} (h : Axes z ts ie)
    (hr : (splitOf z ts).reuse = true) :
    reuseOffset (splitOf z ts) ie = 4096 *
      pageAt z.shape (ie.e4 * (splitOf z ts).tileDesc.e4)
        (ie.e1 * cdiv (splitOf z ts).tileDesc.e1 64) (ie.e3 * (splitOf z ts).tileDesc.e3)
        (ie.e2 * cdiv (splitOf z ts).tileDesc.e2 32) := by
  have hr' : (reuseAxisOf z.shape (descOf z.layout (tileShapeOf z.shape ts))).isSome = true := hr
  have hax : (splitOf z ts).reuseAxis =
      reuseAxisOf z.shape (descOf z.layout (tileShapeOf z.shape ts)) := rfl
  obtain ⟨s, lay, dt⟩ := z
  set sp := splitOf ⟨s, lay, dt⟩ ts with hsp
  have e1 : sp.tileDesc = descOf lay (tileShapeOf s ts) := rfl
  have e2 : sp.full.shape = s := rfl
  have a4 := h.a4
  have a3 := h.a3
  have a2 := h.a2
  have a1 := h.a1
  rw [← hsp, ← e1] at a4 a3 a2 a1
  rw [← e1] at hax hr'
  have c1 : 0 < cdiv s.e1 64 := cdiv_pos a1.s0 (by omega)
  have c2 : 0 < cdiv s.e2 32 := cdiv_pos a2.s0 (by omega)
  have s4 := a4.s0
  have s3 := a3.s0
  -- the exact quotients
  have q6 : sp.tileDesc.e4 = 1 → cdiv (bufferSize s) sp.numTiles.e4 =
      4096 * (cdiv s.e1 64 * s.e3 * cdiv s.e2 32) := by
    intro hd
    have hn : sp.numTiles.e4 = s.e4 := by
      have := a4.n_unit (by rw [hd, cdiv_one_right])
      rwa [cdiv_one_right] at this
    rw [hn, show bufferSize s = s.e4 * (4096 * (cdiv s.e1 64 * s.e3 * cdiv s.e2 32)) by
      unfold bufferSize; ring]
    exact cdiv_mul s4
  have q5 : sp.tileDesc.e4 = 1 → cdiv sp.tileDesc.e1 64 = 1 →
      cdiv (cdiv (bufferSize s) sp.numTiles.e4) sp.numTiles.e1 =
      4096 * (s.e3 * cdiv s.e2 32) := by
    intro hd h1
    rw [q6 hd, a1.n_unit h1, show 4096 * (cdiv s.e1 64 * s.e3 * cdiv s.e2 32) =
      cdiv s.e1 64 * (4096 * (s.e3 * cdiv s.e2 32)) by ring]
    exact cdiv_mul c1
  have q4 : sp.tileDesc.e4 = 1 → cdiv sp.tileDesc.e1 64 = 1 → sp.tileDesc.e3 = 1 →
      cdiv (cdiv (cdiv (bufferSize s) sp.numTiles.e4) sp.numTiles.e1) sp.numTiles.e3 =
      4096 * cdiv s.e2 32 := by
    intro hd h1 h3
    have hn : sp.numTiles.e3 = s.e3 := by
      have := a3.n_unit (by rw [h3, cdiv_one_right])
      rwa [cdiv_one_right] at this
    rw [q5 hd h1, hn, show 4096 * (s.e3 * cdiv s.e2 32) = s.e3 * (4096 * cdiv s.e2 32) by ring]
    exact cdiv_mul s3
  have z3 : sp.tileDesc.e3 = s.e3 → ie.e3 = 0 := fun e =>
    a3.ie_zero (by rw [e])
  have z2 : cdiv sp.tileDesc.e2 32 = cdiv s.e2 32 → ie.e2 = 0 := fun e => a2.ie_zero e
  have z1 : cdiv sp.tileDesc.e1 64 = cdiv s.e1 64 → ie.e1 = 0 := fun e => a1.ie_zero e
  have er : ∀ r, sp.reuseAxis = r → reuseOffset sp ie =
      (match r with
      | some .d6 => bufferSize sp.tileDesc * ie.e4
      | some .d5 => cdiv (bufferSize s) sp.numTiles.e4 * ie.e4 + bufferSize sp.tileDesc * ie.e1
      | some .d4 => cdiv (bufferSize s) sp.numTiles.e4 * ie.e4 +
          cdiv (cdiv (bufferSize s) sp.numTiles.e4) sp.numTiles.e1 * ie.e1 +
          bufferSize sp.tileDesc * ie.e3
      | some .d3 => cdiv (bufferSize s) sp.numTiles.e4 * ie.e4 +
          cdiv (cdiv (bufferSize s) sp.numTiles.e4) sp.numTiles.e1 * ie.e1 +
          cdiv (cdiv (cdiv (bufferSize s) sp.numTiles.e4) sp.numTiles.e1) sp.numTiles.e3 * ie.e3 +
          bufferSize sp.tileDesc * ie.e2
      | none => 0) := by
    intro r hr
    rw [← hr]
    rfl
  unfold reuseAxisOf at hax hr'
  dsimp only at hax hr'
  by_cases hd4 : sp.tileDesc.e4 = 1
  · rw [if_pos hd4] at hax hr'
    by_cases hd1 : cdiv sp.tileDesc.e1 64 = 1
    · rw [if_pos hd1] at hax hr'
      by_cases hd3 : sp.tileDesc.e3 = 1
      · rw [if_pos hd3] at hax
        rw [er _ hax]
        dsimp only
        rw [q4 hd4 hd1 hd3, q5 hd4 hd1, q6 hd4]
        unfold pageAt bufferSize
        rw [hd4, hd3, hd1]
        ring
      · rw [if_neg hd3] at hax hr'
        by_cases hd2 : cdiv sp.tileDesc.e2 32 = cdiv s.e2 32
        · rw [if_pos hd2] at hax
          rw [er _ hax]
          dsimp only
          rw [q5 hd4 hd1, q6 hd4]
          unfold pageAt bufferSize
          rw [hd4, hd1, hd2, z2 hd2]
          ring
        · rw [if_neg hd2] at hr'; simp at hr'
    · rw [if_neg hd1] at hax hr'
      by_cases hd2 : sp.tileDesc.e3 = s.e3 ∧ cdiv sp.tileDesc.e2 32 = cdiv s.e2 32
      · rw [if_pos hd2] at hax
        rw [er _ hax]
        dsimp only
        rw [q6 hd4]
        unfold pageAt bufferSize
        rw [hd4, hd2.1, hd2.2, z2 hd2.2, z3 hd2.1]
        ring
      · rw [if_neg hd2] at hr'; simp at hr'
  · rw [if_neg hd4] at hax hr'
    by_cases hd2 : cdiv sp.tileDesc.e1 64 = cdiv s.e1 64 ∧ sp.tileDesc.e3 = s.e3 ∧
        cdiv sp.tileDesc.e2 32 = cdiv s.e2 32
    · rw [if_pos hd2] at hax
      rw [er _ hax]
      dsimp only
      unfold pageAt bufferSize
      rw [hd2.1, hd2.2.1, hd2.2.2, z1 hd2.1, z2 hd2.2.2, z3 hd2.2.1]
      ring
    · rw [if_neg hd2] at hr'; simp at hr'

/-- A page of a tile that shares the full buffer lies at its place in the full buffer. -/
theorem reuse_page {z : ZTensor} {ts ie T : Quad} (h : Axes z ts ie) (hT : TileSizes z ts ie T)
    (hr : (splitOf z ts).reuse = true) {p6 p5 p4 p3 : ℕ} (h6 : p6 < T.e4) (h5 : p5 < cdiv T.e1 64)
    (h4 : p4 < T.e3) :
    pageAt T p6 p5 p4 p3 +
      pageAt z.shape (ie.e4 * (splitOf z ts).tileDesc.e4)
        (ie.e1 * cdiv (splitOf z ts).tileDesc.e1 64) (ie.e3 * (splitOf z ts).tileDesc.e3)
        (ie.e2 * cdiv (splitOf z ts).tileDesc.e2 32) =
    pageAt z.shape (ie.e4 * (splitOf z ts).tileDesc.e4 + p6)
        (p5 + ie.e1 * cdiv (splitOf z ts).tileDesc.e1 64)
        (p4 + ie.e3 * (splitOf z ts).tileDesc.e3)
        (p3 + ie.e2 * cdiv (splitOf z ts).tileDesc.e2 32) := by
  have hr' : (reuseAxisOf z.shape (descOf z.layout (tileShapeOf z.shape ts))).isSome = true := hr
  have e1 : (splitOf z ts).tileDesc = descOf z.layout (tileShapeOf z.shape ts) := rfl
  rw [e1]
  set d := descOf z.layout (tileShapeOf z.shape ts) with hd
  have l4 := h.a4.tile_le hT.t4
  have l3 := h.a3.tile_le hT.t3
  have l1 := h.a1.tile_le hT.t1
  have f3 := h.a3.tile_full hT.t3
  have f2 := h.a2.tile_full hT.t2
  have f1 := h.a1.tile_full hT.t1
  rw [← hd] at l4 l3 l1 f3 f2 f1
  simp only [cdiv_one_right] at l4 l3 f3
  unfold reuseAxisOf at hr'
  by_cases hd4 : d.e4 = 1
  · rw [if_pos hd4] at hr'
    have z6 : p6 = 0 := by omega
    by_cases hd1 : cdiv d.e1 64 = 1
    · rw [if_pos hd1] at hr'
      have z5 : p5 = 0 := by omega
      by_cases hd3 : d.e3 = 1
      · have z4 : p4 = 0 := by omega
        unfold pageAt
        rw [z6, z5, z4]; ring
      · rw [if_neg hd3] at hr'
        by_cases hd2 : cdiv d.e2 32 = cdiv z.shape.e2 32
        · unfold pageAt
          rw [z6, z5, f2 hd2]; ring
        · rw [if_neg hd2] at hr'; simp at hr'
    · rw [if_neg hd1] at hr'
      by_cases hd2 : d.e3 = z.shape.e3 ∧ cdiv d.e2 32 = cdiv z.shape.e2 32
      · unfold pageAt
        rw [z6, f2 hd2.2, f3 hd2.1]; ring
      · rw [if_neg hd2] at hr'; simp at hr'
  · rw [if_neg hd4] at hr'
    by_cases hd2 : cdiv d.e1 64 = cdiv z.shape.e1 64 ∧ d.e3 = z.shape.e3 ∧
        cdiv d.e2 32 = cdiv z.shape.e2 32
    · unfold pageAt
      rw [f1 hd2.1, f2 hd2.2.2, f3 hd2.2.1]; ring
    · rw [if_neg hd2] at hr'; simp at hr'

/-- A cell of a tile that shares the full buffer. -/
theorem reuse_cell {z : ZTensor} {ts ie T : Quad} (h : Axes z ts ie) (hT : TileSizes z ts ie T)
    (hr : (splitOf z ts).reuse = true) {a : ℕ} (ha : a < cells T) :
    a + reuseOffset (splitOf z ts) ie / 2 =
      cellMap z.shape (tileShapeOf z.shape ts) ie T a := by
  have hp := tile_positive h hT
  have hc := padded_cellIdx hp a
  rw [cellMap_div_mod h, pageOf_glob h,
    ← reuse_page h hT hr (cellIdx_e4_lt hp ha) hc.2.2 hc.1 (p3 := (cellIdx T a).e2 / 32),
    reuseOffset_eq h hr]
  have hpg : pageAt T (cellIdx T a).e4 ((cellIdx T a).e1 / 64) (cellIdx T a).e3
      ((cellIdx T a).e2 / 32) = a / 2048 := by
    have := addr_div T (cellIdx T a)
    rw [addr_cellIdx] at this
    exact this.symm
  rw [hpg]
  omega

/-! ### Reading and writing tiles -/

theorem inputTile_cell {α : Type} {z : ZTensor} {ts ie : Quad} (h : Axes z ts ie) (hf : Fits z)
    (full own : Buf α) {a : ℕ} (ha : a < cells (tileDescAt (splitOf z ts) ie)) :
    inputTile (splitOf z ts) ie full own a =
      full (cellMap z.shape (tileShapeOf z.shape ts) ie (tileDescAt (splitOf z ts) ie) a) := by
  unfold inputTile
  cases hr : (splitOf z ts).reuse
  · exact copyToTile_cell h hf full own ha
  · show full (a + _) = _
    rw [reuse_cell h (tileSizes_of h hf) hr ha]

/-- What a tile leaves in the full buffer. -/
theorem storeTile_cell {α : Type} {z : ZTensor} {ts ie : Quad} (h : Axes z ts ie) (hf : Fits z)
    {own full y : Buf α}
    (hy : ∀ a, cells (tileDescAt (splitOf z ts) ie) ≤ a →
      y a = outputTile (splitOf z ts) ie full own a) (x : ℕ) :
    ((∀ a, a < cells (tileDescAt (splitOf z ts) ie) →
        cellMap z.shape (tileShapeOf z.shape ts) ie (tileDescAt (splitOf z ts) ie) a ≠ x) →
      storeTile (splitOf z ts) ie y full x = full x) ∧
    ((∃ a, a < cells (tileDescAt (splitOf z ts) ie) ∧
        cellMap z.shape (tileShapeOf z.shape ts) ie (tileDescAt (splitOf z ts) ie) a = x) →
      ∃ a, a < cells (tileDescAt (splitOf z ts) ie) ∧
        cellMap z.shape (tileShapeOf z.shape ts) ie (tileDescAt (splitOf z ts) ie) a = x ∧
        storeTile (splitOf z ts) ie y full x = y a) := by
  cases hr : (splitOf z ts).reuse
  · have e : storeTile (splitOf z ts) ie y full = copyToFull (splitOf z ts) ie y full := by
      unfold storeTile; rw [hr]; rfl
    rw [e]
    exact copyToFull_cell h hf y full x
  · have e : storeTile (splitOf z ts) ie y full = fun a =>
        if reuseOffset (splitOf z ts) ie / 2 ≤ a then y (a - reuseOffset (splitOf z ts) ie / 2)
        else full a := by
      unfold storeTile; rw [hr]; rfl
    have ho : ∀ a, outputTile (splitOf z ts) ie full own a =
        full (a + reuseOffset (splitOf z ts) ie / 2) := by
      intro a; unfold outputTile; rw [hr]; rfl
    have hrc := fun a (ha : a < cells (tileDescAt (splitOf z ts) ie)) =>
      reuse_cell h (tileSizes_of h hf) hr ha
    rw [e]
    dsimp only
    by_cases hle : reuseOffset (splitOf z ts) ie / 2 ≤ x
    · rw [if_pos hle]
      constructor
      · intro hno
        by_cases hlt : x - reuseOffset (splitOf z ts) ie / 2 <
            cells (tileDescAt (splitOf z ts) ie)
        · exact absurd (by rw [← hrc _ hlt]; omega) (hno _ hlt)
        · rw [hy _ (by omega), ho]
          congr 1; omega
      · rintro ⟨a, ha, hax⟩
        have : x - reuseOffset (splitOf z ts) ie / 2 = a := by
          rw [← hax, ← hrc a ha]; omega
        exact ⟨a, ha, hax, by rw [this]⟩
    · rw [if_neg hle]
      constructor
      · intro _; rfl
      · rintro ⟨a, ha, hax⟩
        rw [← hrc a ha] at hax
        omega

end Verif.Zdnnx
