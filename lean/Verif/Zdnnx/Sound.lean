import Verif.Zdnnx.Tiles

/-! What the tiles of a loop leave in the full tensor. -/

namespace Verif.Zdnnx

/-- The tile that element `i` is in. -/
def tileOf (t i : Quad) : Quad := ⟨i.e4 / t.e4, i.e3 / t.e3, i.e2 / t.e2, i.e1 / t.e1⟩

/-- The index in its tile of element `i`. -/
def within (t i : Quad) : Quad := ⟨i.e4 % t.e4, i.e3 % t.e3, i.e2 % t.e2, i.e1 % t.e1⟩

theorem mem_allTiles {n ie : Quad} : ie ∈ allTiles n ↔ Inside ie n := by
  obtain ⟨a, b, c, d⟩ := ie
  unfold allTiles Inside
  simp only [List.mem_flatMap, List.mem_map, List.mem_range, Quad.mk.injEq]
  constructor
  · rintro ⟨a, ha, b, hb, c, hc, d, hd, rfl, rfl, rfl, rfl⟩
    exact ⟨ha, hb, hc, hd⟩
  · rintro ⟨ha, hb, hc, hd⟩
    exact ⟨a, ha, b, hb, c, hc, d, hd, rfl, rfl, rfl, rfl⟩

theorem Ax.padded {u s t d n ie T l : ℕ} (h : Ax u s t d n ie) (hT : T = min t (s - ie * t))
    (hl : l / u < cdiv T u) : (ie * t + l) / u < cdiv s u := by
  rw [lt_cdiv_iff h.u0] at hl ⊢
  have ho := h.off_lt
  by_cases h0 : ie = 0
  · subst h0
    simp only [Nat.zero_mul, Nat.zero_add, Nat.sub_zero] at hT ⊢
    omega
  · obtain ⟨c, hc⟩ := Nat.dvd_of_mod_eq_zero (h.aligned h0).1
    have e : ie * t = u * (ie * c) := by rw [hc]; ring
    rw [e, Nat.mul_add_div h.u0, Nat.mul_add, ← e]
    omega

theorem glob_padded {z : ZTensor} {ts ie l : Quad} (h : Axes z ts ie)
    (hl : Padded l (trueTile z.shape (tileShapeOf z.shape ts) ie)) :
    Padded (glob (tileShapeOf z.shape ts) ie l) z.shape := by
  refine ⟨?_, h.a2.padded rfl hl.2.1, h.a1.padded rfl hl.2.2⟩
  have := h.a3.padded rfl (l := l.e3) (by rw [Nat.div_one, cdiv_one_right]; exact hl.1)
  rwa [Nat.div_one, cdiv_one_right] at this

theorem glob_e4_lt {z : ZTensor} {ts ie l : Quad} (h : Axes z ts ie)
    (hl : l.e4 < (trueTile z.shape (tileShapeOf z.shape ts) ie).e4) :
    (glob (tileShapeOf z.shape ts) ie l).e4 < z.shape.e4 := h.a4.glob_lt rfl hl

theorem glob_inj {t ie l l' : Quad} (h : glob t ie l = glob t ie l') : l = l' := by
  obtain ⟨a, b, c, d⟩ := l
  obtain ⟨a', b', c', d'⟩ := l'
  simp only [glob, Quad.mk.injEq] at h ⊢
  omega

theorem trueTile_positive {z : ZTensor} {ts ie : Quad} (h : Axes z ts ie) :
    Positive (trueTile z.shape (tileShapeOf z.shape ts) ie) :=
  tile_positive h (T := trueTile z.shape (tileShapeOf z.shape ts) ie)
    ⟨Or.inr rfl, Or.inr rfl, Or.inr rfl, Or.inr rfl⟩

theorem within_inside {z : ZTensor} {ts ie i : Quad} (h : Axes z ts ie) (hi : Inside i z.shape)
    (hd : tileOf (tileShapeOf z.shape ts) i = ie) :
    Inside (within (tileShapeOf z.shape ts) i) (trueTile z.shape (tileShapeOf z.shape ts) ie) ∧
    glob (tileShapeOf z.shape ts) ie (within (tileShapeOf z.shape ts) i) = i := by
  obtain ⟨d4, d3, d2, d1⟩ := ie
  simp only [tileOf, Quad.mk.injEq] at hd
  obtain ⟨h4, h3, h2, h1⟩ := hd
  constructor
  · exact ⟨h.a4.loc_lt rfl hi.1 h4, h.a3.loc_lt rfl hi.2.1 h3, h.a2.loc_lt rfl hi.2.2.1 h2,
      h.a1.loc_lt rfl hi.2.2.2 h1⟩
  · obtain ⟨i4, i3, i2, i1⟩ := i
    simp only [glob, within, Quad.mk.injEq]
    exact ⟨Ax.glob_loc h4, Ax.glob_loc h3, Ax.glob_loc h2, Ax.glob_loc h1⟩

theorem glob_tileOf {z : ZTensor} {ts ie l : Quad} (h : Axes z ts ie)
    (hl : Padded l (trueTile z.shape (tileShapeOf z.shape ts) ie))
    (h4 : l.e4 < (trueTile z.shape (tileShapeOf z.shape ts) ie).e4)
    (hi : Inside (glob (tileShapeOf z.shape ts) ie l) z.shape) :
    Inside l (trueTile z.shape (tileShapeOf z.shape ts) ie) ∧
    tileOf (tileShapeOf z.shape ts) (glob (tileShapeOf z.shape ts) ie l) = ie := by
  have l2 := h.a2.inside_tile rfl hl.2.1 hi.2.2.1
  have l1 := h.a1.inside_tile rfl hl.2.2 hi.2.2.2
  refine ⟨⟨h4, hl.1, l2, l1⟩, ?_⟩
  obtain ⟨d4, d3, d2, d1⟩ := ie
  simp only [tileOf, glob, Quad.mk.injEq]
  exact ⟨h.a4.glob_div rfl h4, h.a3.glob_div rfl hl.1, h.a2.glob_div rfl l2, h.a1.glob_div rfl l1⟩

/-- The element of an input tile. -/
theorem inputTile_elem {α : Type} {z : ZTensor} {ts ie : Quad} (h : Axes z ts ie) (hf : Fits z)
    (hn : isFullTile (splitOf z ts) ie = false) (full own : Buf α) {l : Quad}
    (hl : Inside l (trueTile z.shape (tileShapeOf z.shape ts) ie)) :
    elem (inputTile (splitOf z ts) ie full own)
        (trueTile z.shape (tileShapeOf z.shape ts) ie) l =
      elem full z.shape (glob (tileShapeOf z.shape ts) ie l) := by
  have hT := tileDescAt_true h hf hn
  unfold elem
  rw [inputTile_cell h hf full own (by rw [hT]; exact addr_inside_lt hl), hT]
  unfold cellMap
  rw [cellIdx_addr (padded_of_inside hl)]

/-- What a step of the loops does to the full tensor: the elements of the tile get their values,
the others keep theirs or get their own values, and nothing outside the buffer changes. -/
def StepSound {α : Type} (s t : Quad) (val : Quad → α) (ie : Quad) (before after : Buf α) : Prop :=
  (∀ i, Inside i s → tileOf t i = ie → elem after s i = val i) ∧
  (∀ i, Inside i s → elem after s i = elem before s i ∨ elem after s i = val i) ∧
  ∀ a, cells s ≤ a → after a = before a

/-- The result of a tile with the right descriptor. -/
theorem storeTile_sound {α : Type} {z : ZTensor} {ts ie : Quad} (h : Axes z ts ie) (hf : Fits z)
    (hn : isFullTile (splitOf z ts) ie = false) {own full y : Buf α} {val tval : Quad → α}
    (hc : Computed (trueTile z.shape (tileShapeOf z.shape ts) ie) tval
      (outputTile (splitOf z ts) ie full own) y)
    (hv : ∀ l, Inside l (trueTile z.shape (tileShapeOf z.shape ts) ie) →
      tval l = val (glob (tileShapeOf z.shape ts) ie l)) :
    StepSound z.shape (tileShapeOf z.shape ts) val ie full
      (storeTile (splitOf z ts) ie y full) := by
  have hT := tileDescAt_true h hf hn
  have hp := trueTile_positive h
  have hs := storeTile_cell h hf (own := own) (full := full) (y := y)
    (by rw [hT]; exact hc.2)
  rw [hT] at hs
  set t := tileShapeOf z.shape ts with ht
  set T := trueTile z.shape t ie with hTd
  have hin : ∀ i, Inside i z.shape → ∀ a, a < cells T → cellMap z.shape t ie T a = addr z.shape i →
      storeTile (splitOf z ts) ie y full (addr z.shape i) = y a →
      storeTile (splitOf z ts) ie y full (addr z.shape i) = val i := by
    intro i hi a ha hm hy
    have hpad := padded_cellIdx hp a
    have h4 := cellIdx_e4_lt hp ha
    have he := addr_inj (glob_padded h hpad) (padded_of_inside hi) hm
    have hl := (glob_tileOf h hpad h4 (by rw [he]; exact hi)).1
    rw [hy, ← addr_cellIdx T a]
    have := hc.1 _ hl
    unfold elem at this
    rw [this, hv _ hl, he]
  refine ⟨?_, ?_, ?_⟩
  · intro i hi hd
    obtain ⟨hl, hg⟩ := within_inside h hi hd
    have hm : cellMap z.shape t ie T (addr T (within t i)) = addr z.shape i := by
      unfold cellMap
      rw [cellIdx_addr (padded_of_inside hl), hg]
    obtain ⟨a, ha, hma, hy⟩ := (hs (addr z.shape i)).2 ⟨_, addr_inside_lt hl, hm⟩
    exact hin i hi a ha hma hy
  · intro i hi
    by_cases hex : ∃ a, a < cells T ∧ cellMap z.shape t ie T a = addr z.shape i
    · obtain ⟨a, ha, hma, hy⟩ := (hs (addr z.shape i)).2 hex
      exact Or.inr (hin i hi a ha hma hy)
    · push Not at hex
      exact Or.inl ((hs (addr z.shape i)).1 hex)
  · intro x hx
    apply (hs x).1
    intro a ha hm
    have hpad := padded_cellIdx hp a
    have h4 := cellIdx_e4_lt hp ha
    have := addr_lt (glob_padded h hpad) (glob_e4_lt h h4)
    unfold cellMap at hm
    rw [← hm] at hx
    exact absurd this (not_lt.2 hx)

/-- The loops over the tiles, in any order that visits all of them. -/
theorem runTiles_sound {α : Type} {step : Quad → Buf α → Option (Buf α)} {s t : Quad}
    {val : Quad → α} {order : List Quad}
    (hstep : ∀ ie ∈ order, ∀ out out', step ie out = some out' → StepSound s t val ie out out')
    {out out' : Buf α} (hr : runTiles step order out = some out') :
    (∀ i, Inside i s → tileOf t i ∈ order → elem out' s i = val i) ∧
    (∀ i, Inside i s → elem out' s i = elem out s i ∨ elem out' s i = val i) ∧
    ∀ a, cells s ≤ a → out' a = out a := by
  induction order generalizing out with
  | nil =>
    simp only [runTiles, Option.some.injEq] at hr
    subst hr
    exact ⟨fun i _ h => absurd h List.not_mem_nil, fun i _ => Or.inl rfl, fun a _ => rfl⟩
  | cons ie rest ih =>
    simp only [runTiles] at hr
    obtain ⟨mid, h1, h2⟩ := Option.bind_eq_some_iff.1 hr
    obtain ⟨s1, s2, s3⟩ := hstep ie (by simp) out mid h1
    obtain ⟨i1, i2, i3⟩ := ih (fun ie' hie => hstep ie' (by simp [hie])) h2
    refine ⟨?_, ?_, ?_⟩
    · intro i hi hm
      rcases List.mem_cons.1 hm with he | he
      · rcases i2 i hi with e | e
        · rw [e]; exact s1 i hi he
        · exact e
      · exact i1 i hi he
    · intro i hi
      rcases i2 i hi with e | e
      · rw [e]; exact s2 i hi
      · exact Or.inr e
    · intro a ha
      rw [i3 a ha, s3 a ha]

theorem tileOf_mem {z : ZTensor} {ts : Quad} (hp : Positive z.shape) {i : Quad}
    (hi : Inside i z.shape) : Inside (tileOf (tileShapeOf z.shape ts) i) (splitOf z ts).numTiles := by
  have h4 : 0 < outerTile z.shape.e4 ts.e4 := by
    rw [outerTile_eq]; exact innerTile_pos Nat.one_pos hp.1
  have h3 : 0 < outerTile z.shape.e3 ts.e3 := by
    rw [outerTile_eq]; exact innerTile_pos Nat.one_pos hp.2.1
  exact ⟨div_lt_cdiv h4 hi.1, div_lt_cdiv h3 hi.2.1,
    div_lt_cdiv (innerTile_pos (by omega) hp.2.2.1) hi.2.2.1,
    div_lt_cdiv (innerTile_pos (by omega) hp.2.2.2) hi.2.2.2⟩

/-- The loops over all the tiles compute the full tensor. -/
theorem allTiles_computed {α : Type} {step : Quad → Buf α → Option (Buf α)} {z : ZTensor}
    {ts : Quad} (hp : Positive z.shape) {val : Quad → α} {order : List Quad}
    (hord : ∀ ie, ie ∈ order ↔ Inside ie (splitOf z ts).numTiles)
    (hstep : ∀ ie, Inside ie (splitOf z ts).numTiles → ∀ out out', step ie out = some out' →
      StepSound z.shape (tileShapeOf z.shape ts) val ie out out')
    {out out' : Buf α} (hr : runTiles step order out = some out') :
    Computed z.shape val out out' := by
  obtain ⟨h1, _, h3⟩ := runTiles_sound (s := z.shape) (t := tileShapeOf z.shape ts) (val := val)
    (fun ie hie => hstep ie ((hord ie).1 hie)) hr
  exact ⟨fun i hi => h1 i hi ((hord _).2 (tileOf_mem hp hi)), h3⟩

end Verif.Zdnnx
