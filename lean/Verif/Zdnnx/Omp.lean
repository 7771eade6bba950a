import Verif.Zdnnx.Elementwise
import Mathlib.Data.List.Perm.Basic

/-! Softmax, and the parallel elementwise operations. -/

namespace Verif.Zdnnx

theorem noSplit_eq (z : ZTensor) (ts : Quad) (h : (prepareSplit z ts).noSplit = true) :
    prepareSplit z ts = oneTile z := by
  rcases prepareSplit_cases z ts with e | e
  · exact e
  · rw [e] at h; simp [splitOf] at h

/-! ### Softmax -/

theorem rowStep_sound {α : Type} {R : List α → ℕ → α} {op : Unary α} {z : ZTensor}
    {ts ie : Quad} (h : Axes z ts ie) (hf : Fits z) (h1 : ts.e1 = 0)
    (hop : ∀ x out out', op (trueTile z.shape (tileShapeOf z.shape ts) ie) x out = some out' →
      Computed (trueTile z.shape (tileShapeOf z.shape ts) ie)
        (rowVal R (trueTile z.shape (tileShapeOf z.shape ts) ie) x) out out')
    {ownX ownY : Quad → Buf α} {x out out' : Buf α}
    (hs : unaryStep op (splitOf z ts) ownX ownY x ie out = some out') :
    StepSound z.shape (tileShapeOf z.shape ts) (rowVal R z.shape x) ie out out' := by
  have t1 : (tileShapeOf z.shape ts).e1 = z.shape.e1 := by
    show innerTile _ _ _ = _
    rw [h1]; rfl
  have hn := isFullTile_whole h (Or.inr (Or.inr (Or.inr t1)))
  have i1 : ie.e1 = 0 := by
    have := h.a1.lt
    rw [h.a1.n_eq, t1, cdiv_self h.a1.s0] at this
    omega
  unfold unaryStep at hs
  obtain ⟨y, hy, rfl⟩ := Option.map_eq_some_iff.1 hs
  rw [tileDescAt_true h hf hn] at hy
  refine storeTile_sound h hf hn (hop _ _ _ hy) ?_
  intro l hl
  have eT : (trueTile z.shape (tileShapeOf z.shape ts) ie).e1 = z.shape.e1 := by
    simp only [trueTile]; rw [t1, i1]; omega
  unfold rowVal
  rw [eT]
  congr 1
  · apply List.map_congr_left
    intro k hk
    rw [List.mem_range] at hk
    rw [inputTile_elem h hf hn x (ownX ie)
      (show Inside { l with e1 := k } _ from ⟨hl.1, hl.2.1, hl.2.2.1, by rw [eT]; exact hk⟩)]
    congr 1
    simp only [glob, i1, Nat.zero_mul, Nat.zero_add]
  · simp only [glob, i1, Nat.zero_mul, Nat.zero_add]

theorem numTiles_e1 {z : ZTensor} (hp : Positive z.shape) {ts : Quad} (h1 : ts.e1 = 0) :
    (splitOf z ts).numTiles.e1 = 1 := by
  show cdiv z.shape.e1 (innerTile 64 z.shape.e1 ts.e1) = 1
  rw [h1]
  exact cdiv_self hp.2.2.2

theorem seqSoftmax_sound {α : Type} {R : List α → ℕ → α} {op : Unary α} (hop : RowOp R op)
    {lim : Limits} {z : ZTensor} (hp : Positive z.shape) (hf : Fits z)
    {ownX ownY : Quad → Buf α} {x out out' : Buf α}
    (h : seqSoftmax lim op z ownX ownY x out = some out') :
    Computed z.shape (rowVal R z.shape x) out out' := by
  unfold seqSoftmax at h
  obtain ⟨ts, _, h⟩ := Option.bind_eq_some_iff.1 h
  dsimp only at h
  generalize hts : ({ ts with e1 := 0 } : Quad) = ts' at h
  have h1 : ts'.e1 = 0 := by rw [← hts]
  cases hn : (prepareSplit z ts').noSplit
  · rw [prepareSplit_eq z ts' hn] at h
    rw [if_neg (by simp [splitOf])] at h
    refine allTiles_computed hp (ts := ts') ?_ ?_ h
    · intro ie
      rw [mem_allTiles]
      have : ({ (splitOf z ts').numTiles with e1 := 1 } : Quad) = (splitOf z ts').numTiles := by
        rw [← numTiles_e1 hp h1]
      rw [this]
    · intro ie hie o o' ho
      have hx := axes_of hp hf hie
      exact rowStep_sound hx hf h1 (fun x out out' hh => hop _ _ _ _ (trueTile_positive hx) hh) ho
  · rw [noSplit_eq z ts' hn, if_pos (by rfl)] at h
    exact hop _ _ _ _ hp h

theorem perm_mem {n : Quad} {order : List Quad} (h : order.Perm (allTiles n)) (ie : Quad) :
    ie ∈ order ↔ Inside ie n := by rw [h.mem_iff]; exact mem_allTiles

theorem ompSoftmax_sound {α : Type} {R : List α → ℕ → α} {op : Unary α} (hop : RowOp R op)
    {lim : Limits} {threads : ℕ} {z : ZTensor} (hp : Positive z.shape) (hf : Fits z)
    {ownX ownY : Quad → Buf α} {order : List Quad}
    (hord : order.Perm (allTiles { (ompSoftmaxSplit lim threads z).numTiles with e3 := 1, e1 := 1 }))
    {x out out' : Buf α} (h : ompSoftmax lim threads op z ownX ownY order x out = some out') :
    Computed z.shape (rowVal R z.shape x) out out' := by
  unfold ompSoftmax at h
  unfold ompSoftmaxSplit at h hord
  dsimp only at h hord
  split at h
  · cases h
  · generalize hts : (⟨(ompSoftmaxSizes lim threads z.shape).1, 0,
      (ompSoftmaxSizes lim threads z.shape).2, 0⟩ : Quad) = ts at h hord
    have h1 : ts.e1 = 0 := by rw [← hts]
    have h3 : ts.e3 = 0 := by rw [← hts]
    cases hn : (prepareSplit z ts).noSplit
    · rw [prepareSplit_eq z ts hn] at h hord
      rw [if_neg (by simp [splitOf])] at h
      have e3 : (splitOf z ts).numTiles.e3 = 1 := by
        show cdiv z.shape.e3 (outerTile z.shape.e3 ts.e3) = 1
        rw [h3]; exact cdiv_self hp.2.1
      have : ({ (splitOf z ts).numTiles with e3 := 1, e1 := 1 } : Quad) =
          (splitOf z ts).numTiles := by
        have e1 := numTiles_e1 hp h1
        generalize (splitOf z ts).numTiles = q at e1 e3 ⊢
        obtain ⟨q4, q3, q2, q1⟩ := q
        dsimp only at e1 e3 ⊢
        subst e1 e3
        rfl
      rw [this] at hord
      refine allTiles_computed hp (ts := ts) (perm_mem hord) ?_ h
      intro ie hie o o' ho
      have hx := axes_of hp hf hie
      refine rowStep_sound hx hf h1 ?_ ho
      intro x out out' hh
      exact seqSoftmax_sound hop (z := { z with shape := _ }) (trueTile_positive hx)
        (desc_trueTile hx hf) hh
    · rw [noSplit_eq z ts hn, if_pos (by rfl)] at h
      exact seqSoftmax_sound hop hp hf h

/-! ### The view of a tensor as a list of pages -/

/-- Without padding, an operation that computes every cell from the same cell of its inputs is one
on the cells. -/
theorem computed_cells {α : Type} {s : Quad} (hp : Positive s) (h2 : s.e2 % 32 = 0)
    (h1 : s.e1 % 64 = 0) {g : ℕ → α} {out out' : Buf α} :
    Computed s (fun i => g (addr s i)) out out' ↔
      (∀ a, a < cells s → out' a = g a) ∧ ∀ a, cells s ≤ a → out' a = out a := by
  unfold Computed
  constructor
  · rintro ⟨h, hr⟩
    refine ⟨fun a ha => ?_, hr⟩
    have := h _ (cellIdx_inside hp h2 h1 ha)
    unfold elem at this
    dsimp only at this
    rwa [addr_cellIdx] at this
  · rintro ⟨h, hr⟩
    exact ⟨fun i hi => h _ (addr_inside_lt hi), hr⟩

theorem cdiv_of_mod {a b : ℕ} (hb : 0 < b) (h : a % b = 0) : cdiv a b = a / b := by
  obtain ⟨c, rfl⟩ := Nat.dvd_of_mod_eq_zero h
  rw [cdiv_mul hb, Nat.mul_div_cancel_left _ hb]

theorem cells_collapse {z : ZTensor} (h2 : z.shape.e2 % 32 = 0) (h1 : z.shape.e1 % 64 = 0) :
    cells (collapse z).shape = cells z.shape := by
  unfold cells collapse
  dsimp only
  rw [cdiv_of_mod (by omega) h2, cdiv_of_mod (by omega) h1]
  have e2 : cdiv 32 32 = 1 := by decide
  have e1 : cdiv 64 64 = 1 := by decide
  rw [e2, e1]
  ring

theorem collapse_positive {z : ZTensor} (hp : Positive z.shape) (h2 : z.shape.e2 % 32 = 0)
    (h1 : z.shape.e1 % 64 = 0) : Positive (collapse z).shape := by
  obtain ⟨p4, p3, p2, p1⟩ := hp
  have q2 : 0 < z.shape.e2 / 32 := by omega
  have q1 : 0 < z.shape.e1 / 64 := by omega
  refine ⟨?_, ?_, ?_, ?_⟩
  · show 0 < z.shape.e4 * z.shape.e3 * (z.shape.e2 / 32) * (z.shape.e1 / 64)
    positivity
  all_goals simp [collapse]

theorem collapse_fits (z : ZTensor) : Fits (collapse z) := rfl

theorem viewOf_positive {z : ZTensor} (hp : Positive z.shape) : Positive (viewOf z).shape := by
  unfold viewOf
  split
  · rename_i h
    exact collapse_positive hp h.2.2 h.2.1
  · exact hp

theorem viewOf_fits {z : ZTensor} (hf : Fits z) : Fits (viewOf z) := by
  unfold viewOf
  split
  · exact collapse_fits z
  · exact hf

/-- What is computed cell by cell on the view is computed on the tensor. -/
theorem computed_view {α : Type} {z : ZTensor} (hp : Positive z.shape) {g : ℕ → α}
    {out out' : Buf α}
    (h : Computed (viewOf z).shape (fun i => g (addr (viewOf z).shape i)) out out') :
    Computed z.shape (fun i => g (addr z.shape i)) out out' := by
  unfold viewOf at h
  split at h
  · rename_i hc
    rw [computed_cells (collapse_positive hp hc.2.2 hc.2.1) (by simp [collapse]) (by simp [collapse]),
      cells_collapse hc.2.2 hc.2.1] at h
    rw [computed_cells hp hc.2.2 hc.2.1]
    exact h
  · exact h

/-! ### The parallel elementwise operations -/

theorem runTiles_total {α : Type} {step : Quad → Buf α → Option (Buf α)} {order : List Quad}
    (h : ∀ ie ∈ order, ∀ out, ∃ out', step ie out = some out') (out : Buf α) :
    ∃ out', runTiles step order out = some out' := by
  induction order generalizing out with
  | nil => exact ⟨out, rfl⟩
  | cons ie rest ih =>
    obtain ⟨mid, hm⟩ := h ie (by simp) out
    obtain ⟨o, ho⟩ := ih (fun ie' hie => h ie' (by simp [hie])) mid
    exact ⟨o, by simp only [runTiles, hm, Option.bind_some]; exact ho⟩

theorem select_total {lim : Limits} (h : 0 < lim.size) (inc : Include) (s ts : Quad) :
    ∃ t, selectTileSizes lim inc s ts = some t := by
  unfold selectTileSizes
  dsimp only
  rw [if_neg (by omega)]
  split
  · exact ⟨_, rfl⟩
  · exact ⟨_, rfl⟩

theorem seqUnary_total {α : Type} {op : Unary α} {lim : Limits} (hl : 0 < lim.size)
    (hop : ∀ s x out, Positive s → ∃ out', op s x out = some out') {z : ZTensor}
    (hp : Positive z.shape) (hf : Fits z) (ownX ownY : Quad → Buf α) (x out : Buf α) :
    ∃ out', seqUnary lim op z ownX ownY x out = some out' := by
  obtain ⟨ts, hts⟩ := select_total hl includeAll z.shape noSizes
  unfold seqUnary
  rw [hts, Option.bind_some]
  unfold unaryTiled
  cases hn : (prepareSplit z ts).noSplit
  · rw [prepareSplit_eq z ts hn, if_neg (by simp)]
    apply runTiles_total
    intro ie hie o
    have hx := axes_of hp hf (mem_allTiles.1 hie)
    obtain ⟨y, hy⟩ := hop _ (inputTile (splitOf z ts) ie x (ownX ie))
      (outputTile (splitOf z ts) ie o (ownY ie)) (tile_positive hx (tileSizes_of hx hf))
    exact ⟨storeTile (splitOf z ts) ie y o, by unfold unaryStep; rw [hy]; rfl⟩
  · rw [noSplit_eq z ts hn, if_pos rfl]
    exact hop _ _ _ hp

theorem seqBinary_total {α : Type} {op : Binary α} {lim : Limits} (hl : 0 < lim.size)
    (hop : ∀ s a b out, Positive s → ∃ out', op s a b out = some out') {z : ZTensor}
    (hp : Positive z.shape) (hf : Fits z) (ownA ownB ownY : Quad → Buf α) (a b out : Buf α) :
    ∃ out', seqBinary lim op z ownA ownB ownY a b out = some out' := by
  obtain ⟨ts, hts⟩ := select_total hl includeAll z.shape noSizes
  unfold seqBinary
  rw [hts, Option.bind_some]
  unfold binaryTiled
  cases hn : (prepareSplit z ts).noSplit
  · rw [prepareSplit_eq z ts hn, if_neg (by simp)]
    apply runTiles_total
    intro ie hie o
    have hx := axes_of hp hf (mem_allTiles.1 hie)
    obtain ⟨y, hy⟩ := hop _ (inputTile (splitOf z ts) ie a (ownA ie))
      (inputTile (splitOf z ts) ie b (ownB ie))
      (outputTile (splitOf z ts) ie o (ownY ie)) (tile_positive hx (tileSizes_of hx hf))
    exact ⟨storeTile (splitOf z ts) ie y o, by unfold binaryStep; rw [hy]; rfl⟩
  · rw [noSplit_eq z ts hn, if_pos rfl]
    exact hop _ _ _ _ hp

theorem omp_notFull {z : ZTensor} {v : ℕ} {ie : Quad} (h : Axes z ⟨v, 0, 0, 0⟩ ie) :
    isFullTile (splitOf z ⟨v, 0, 0, 0⟩) ie = false :=
  isFullTile_whole h (Or.inr (Or.inr (Or.inr rfl)))

theorem ompUnary_sound {α : Type} {f : α → α} {op : Unary α} (hop : UnaryOp f op)
    (htot : ∀ s x out, Positive s → ∃ out', op s x out = some out') {lim : Limits}
    (hl : 0 < lim.size) {threads : ℕ} {z : ZTensor} (hp : Positive z.shape) (hf : Fits z)
    {ownX ownY : Quad → Buf α} {order : List Quad}
    (hord : order.Perm (allTiles (ompSplit lim threads z).numTiles))
    {x out out' : Buf α} (h : ompUnary lim threads op z ownX ownY order x out = some out') :
    Computed z.shape (unaryVal f z.shape x) out out' := by
  unfold ompUnary at h
  unfold ompSplit at hord
  dsimp only at h
  split at h
  · cases h
  apply computed_view (g := fun c => f (x c)) hp
  have vp := viewOf_positive hp
  have vf := viewOf_fits hf
  generalize viewOf z = v at *
  generalize hts : (⟨ompTileSize lim threads z, 0, 0, 0⟩ : Quad) = ts at h hord
  cases hn : (prepareSplit v ts).noSplit
  · rw [prepareSplit_eq v ts hn] at h hord
    rw [if_neg (by simp [splitOf])] at h
    refine allTiles_computed vp (ts := ts) (perm_mem hord) ?_ h
    intro ie hie o o' ho
    have hx := axes_of vp vf hie
    have hnf : isFullTile (splitOf v ts) ie = false := by
      rw [← hts] at hx ⊢; exact omp_notFull hx
    -- the operation on the tile succeeds, so its result is stored
    obtain ⟨y, hy⟩ := seqUnary_total hl htot (z := { v with shape := tileDescAt (splitOf v ts) ie })
      (tile_positive hx (tileSizes_of hx vf))
      (by rw [tileDescAt_true hx vf hnf]; exact desc_trueTile hx vf) ownX ownY
      (inputTile (splitOf v ts) ie x (ownX ie)) (outputTile (splitOf v ts) ie o (ownY ie))
    have hc := seqUnary_sound hop (tile_positive hx (tileSizes_of hx vf))
      (by rw [tileDescAt_true hx vf hnf]; exact desc_trueTile hx vf) hy
    have ho' : storeTile (splitOf v ts) ie y o = o' := by
      unfold ompUnaryStep seqUnaryOn at ho
      dsimp only at ho
      rw [hy] at ho
      simpa using ho
    subst ho'
    refine cellwise_sound (g := fun c => f (x c)) hx vf (Or.inl hnf) hc ?_
    intro l hl
    unfold unaryVal elem
    rw [inputTile_cell hx vf x (ownX ie) (addr_inside_lt hl)]
    unfold cellMap
    rw [cellIdx_addr (padded_of_inside hl)]
  · rw [noSplit_eq v ts hn, if_pos (by rfl)] at h
    exact seqUnary_sound hop vp vf h

theorem ompBinary_sound {α : Type} {f : α → α → α} {op : Binary α} (hop : BinaryOp f op)
    (htot : ∀ s a b out, Positive s → ∃ out', op s a b out = some out') {lim : Limits}
    (hl : 0 < lim.size) {threads : ℕ} {z : ZTensor} (hp : Positive z.shape) (hf : Fits z)
    {ownA ownB ownY : Quad → Buf α} {order : List Quad}
    (hord : order.Perm (allTiles (ompSplit lim threads z).numTiles))
    {a b out out' : Buf α}
    (h : ompBinary lim threads op z ownA ownB ownY order a b out = some out') :
    Computed z.shape (binaryVal f z.shape a b) out out' := by
  unfold ompBinary at h
  unfold ompSplit at hord
  dsimp only at h
  split at h
  · cases h
  apply computed_view (g := fun c => f (a c) (b c)) hp
  have vp := viewOf_positive hp
  have vf := viewOf_fits hf
  generalize viewOf z = v at *
  generalize hts : (⟨ompTileSize lim threads z, 0, 0, 0⟩ : Quad) = ts at h hord
  cases hn : (prepareSplit v ts).noSplit
  · rw [prepareSplit_eq v ts hn] at h hord
    rw [if_neg (by simp [splitOf])] at h
    refine allTiles_computed vp (ts := ts) (perm_mem hord) ?_ h
    intro ie hie o o' ho
    have hx := axes_of vp vf hie
    have hnf : isFullTile (splitOf v ts) ie = false := by
      rw [← hts] at hx ⊢; exact omp_notFull hx
    obtain ⟨y, hy⟩ := seqBinary_total hl htot
      (z := { v with shape := tileDescAt (splitOf v ts) ie })
      (tile_positive hx (tileSizes_of hx vf))
      (by rw [tileDescAt_true hx vf hnf]; exact desc_trueTile hx vf) ownA ownB ownY
      (inputTile (splitOf v ts) ie a (ownA ie)) (inputTile (splitOf v ts) ie b (ownB ie))
      (outputTile (splitOf v ts) ie o (ownY ie))
    have hc := seqBinary_sound hop (tile_positive hx (tileSizes_of hx vf))
      (by rw [tileDescAt_true hx vf hnf]; exact desc_trueTile hx vf) hy
    have ho' : storeTile (splitOf v ts) ie y o = o' := by
      unfold ompBinaryStep seqBinaryOn at ho
      dsimp only at ho
      rw [hy] at ho
      simpa using ho
    subst ho'
    refine cellwise_sound (g := fun c => f (a c) (b c)) hx vf (Or.inl hnf) hc ?_
    intro l hl
    unfold binaryVal elem
    rw [inputTile_cell hx vf a (ownA ie) (addr_inside_lt hl),
      inputTile_cell hx vf b (ownB ie) (addr_inside_lt hl)]
    unfold cellMap
    rw [cellIdx_addr (padded_of_inside hl)]
  · rw [noSplit_eq v ts hn, if_pos (by rfl)] at h
    exact seqBinary_sound hop vp vf h

end Verif.Zdnnx
