import Verif.Layout.Lemmas
/-!
# C125: changes of layout
-/
namespace Verif.Props

open Verif.Layout

/-- C125 (partial: with the hypotheses on tiles). The memory that `onnx.LayoutTransform` makes has the
elements of its input in the layout of its output, whatever the order in which the iterations of its
loops run, and no access is outside of the two memories. When tiles are copied, the layouts must keep
the elements of a tile together, and the tiles must divide the rows of an input without tiles. -/
theorem C125_copy_partial {α : Type} (rank : Nat) (L M : Layout) (R E : Nat) (x : Nat → Nat → α)
    (src : Mem α) (hL : L.Ok R E) (hM : M.Ok R E)
    (ht : useTiles rank L M = true → L.Regular R E ∧ M.Regular R E ∧
      ∀ m, L.form = .inner → M.form = .innerMod m → m ∣ E)
    (hs : src.size = L.size E) (hx : Holds L R E x src.at_)
    (order : List (Nat × Nat)) (ho : order.Perm (iterations rank L M R E)) :
    ∃ d, transform rank L M E src order = some d ∧ d.size = M.size E ∧ Holds M R E x d.at_ := by
  unfold transform
  unfold iterations at ho
  by_cases hu : useTiles rank L M = true
  · rw [if_pos hu] at ho ⊢
    obtain ⟨gL, gM, hd⟩ := ht hu
    obtain ⟨m, hm, hv, hf⟩ := useTiles_forms rank L M hu
    unfold tiles at ho
    rw [hv] at ho
    have hb : copyTile L M E src = fun d r t =>
        memcpy d src (tileLen M m E t) (M.addr E r (t * m)) (L.addr E r (t * m)) := by
      funext d r t
      unfold copyTile
      rw [hv]
    rw [hb]
    apply tiles_holds L M R E m x src (tileLen M m E) hm hL hM gL gM
    · rcases hf with h | h | h
      · exact Or.inr h.1
      · exact Or.inl h.1
      · exact Or.inr h.1
    · rcases hf with h | h | h
      · exact Or.inl h.2.1
      · exact Or.inr h.2.1
      · exact Or.inr h.2.1
    · exact hs
    · exact hx
    · intro t ht'
      rcases hf with ⟨f1, f2, f3⟩ | ⟨f1, f2, f3⟩ | ⟨f1, f2, f3⟩
      · unfold tileLen
        rw [f3]
        simp only [ne_eq, not_true_eq_false, if_false]
        by_cases hc : E % m = 0 ∨ t * m + m ≤ E
        · rw [if_pos hc]
          refine ⟨le_refl _, fun _ => ?_⟩
          rcases hc with hc | hc
          · exact tile_le E m t (Nat.dvd_of_mod_eq_zero hc) ht'
          · exact hc
        · rw [if_neg hc]
          refine ⟨?_, fun _ => ?_⟩
          · have : ¬ t * m + m ≤ E := fun h => hc (Or.inr h)
            omega
          · omega
      · have : tileLen M m E t = m := by unfold tileLen; rw [f3, if_pos (by omega)]
        rw [this]
        exact ⟨le_refl _, fun _ => tile_le E m t (hd m f1 f2) ht'⟩
      · have : tileLen M m E t = m := by unfold tileLen; rw [f3, if_pos (by omega)]
        rw [this]
        refine ⟨le_refl _, fun h => ?_⟩
        rw [f1, f2] at h
        simp at h
    · intro e he
      have h1 := Nat.mod_lt e hm
      have h2 := Nat.div_add_mod e m
      have h3 : m * (e / m) = e / m * m := Nat.mul_comm _ _
      unfold tileLen
      split
      · exact h1
      · split
        · exact h1
        · omega
    · exact ho
  · rw [if_neg hu] at ho ⊢
    exact elements_holds L M R E x src hL hM hs hx order ho

/-- The hypotheses are met by rows of any length from tiles to the plain layout, in any order, and
tiles are copied. -/
example (R E : Nat) (x : Nat → Nat → Int) (src : Mem Int) (hs : src.size = (tiled R E 64).size E)
    (hx : Holds (tiled R E 64) R E x src.at_) :
    useTiles 3 (tiled R E 64) (plain R) = true ∧
    ∃ d, transform 3 (tiled R E 64) (plain R) E src
        (iterations 3 (tiled R E 64) (plain R) R E).reverse = some d ∧
      Holds (plain R) R E x d.at_ := by
  refine ⟨rfl, ?_⟩
  obtain ⟨d, h1, -, h3⟩ := C125_copy_partial 3 (tiled R E 64) (plain R) R E x src
    (tiled_ok R E 64 (by omega)).1 (plain_ok R E).1
    (fun _ => ⟨(tiled_ok R E 64 (by omega)).2, (plain_ok R E).2,
      fun m h => by cases h⟩) hs hx _ (List.reverse_perm _)
  exact ⟨d, h1, h3⟩

/-- C125 is false without the hypothesis that tiles divide the rows: from the plain layout to tiles, the
last tile of the last row is read past the end of the input, for every number of rows and every length
that is not a multiple. -/
theorem C125_read_false {α : Type} (rank R E m : Nat) (hk : 2 ≤ rank) (hm : 16 ≤ m) (hR : 0 < R)
    (hE : ¬ m ∣ E) (src : Mem α) (hs : src.size = R * E)
    (order : List (Nat × Nat)) (ho : order.Perm (iterations rank (plain R) (tiled R E m) R E)) :
    transform rank (plain R) (tiled R E m) E src order = none := by
  have hm0 : 0 < m := by omega
  have hu : useTiles rank (plain R) (tiled R E m) = true := by
    simp [useTiles, inspect, plain, tiled, goodMods, hk, hm, hm0]
  have hv : modVal (plain R) (tiled R E m) = m := by
    simp [modVal, modOf, inspect, plain, tiled, hm0]
  have hl : ∀ t, tileLen (tiled R E m) m E t = m := by
    intro t
    unfold tileLen
    rw [if_pos]
    simp [modOf, inspect, tiled, hm0]
    omega
  unfold transform
  unfold iterations tiles at ho
  rw [if_pos hu, hv] at ho
  rw [if_pos hu]
  have hEpos : 0 < E := by
    rcases Nat.eq_zero_or_pos E with h | h
    · exact (hE (h ▸ dvd_zero m)).elim
    · exact h
  have hmem : (R - 1, (E - 1) / m) ∈ order := by
    rw [ho.mem_iff, mem_pairs]
    exact ⟨by omega, div_lt_tiles E m (E - 1) hm0 (by omega)⟩
  have hbad : ∀ d : Mem α, copyTile (plain R) (tiled R E m) E src d (R - 1) ((E - 1) / m) = none := by
    intro d
    unfold copyTile memcpy
    simp only [hv, hl]
    apply if_neg
    rintro ⟨-, h⟩
    rw [hs] at h
    have e1 : (plain R).addr E (R - 1) ((E - 1) / m * m) = (R - 1) * E + (E - 1) / m * m := rfl
    rw [e1] at h
    have e2 : R * E = (R - 1) * E + E := by
      obtain ⟨k, rfl⟩ : ∃ k, R = k + 1 := ⟨R - 1, by omega⟩
      simp only [Nat.add_sub_cancel]
      ring
    have h1 := Nat.div_add_mod (E - 1) m
    have h2 := Nat.mod_lt (E - 1) hm0
    have h3 : m * ((E - 1) / m) = (E - 1) / m * m := Nat.mul_comm _ _
    apply hE
    refine ⟨(E - 1) / m + 1, ?_⟩
    have h4 : m * ((E - 1) / m + 1) = (E - 1) / m * m + m := by ring
    omega
  clear ho
  generalize alloc α (tiled R E m) E = d0
  induction order generalizing d0 with
  | nil => simp at hmem
  | cons p l ih =>
    obtain ⟨r, t⟩ := p
    rcases List.mem_cons.1 hmem with h | h
    · obtain ⟨rfl, rfl⟩ := Prod.mk.inj h
      simp only [loop, hbad]
    · simp only [loop]
      split
      · rfl
      · exact ih h _

/-- The case is met by two rows of 100 elements and tiles of 64. -/
example (src : Mem Int) (hs : src.size = 200) :
    transform 2 (plain 2) (tiled 2 100 64) 100 src
      (iterations 2 (plain 2) (tiled 2 100 64) 2 100) = none :=
  C125_read_false 2 2 100 64 (by omega) (by omega) (by omega) (by omega) src hs _ (List.Perm.refl _)

/-- C125 is false without the hypothesis that layouts keep a tile together, which is not tested: the map
`(r, e) → (r, e floordiv 8, e mod 16)` is a good layout, and elements are not written. -/
theorem C125_map_false :
    ∃ M : Layout, M.Ok 1 16 ∧ ∀ src : Mem Nat, src.size = 16 →
      Holds (plain 1) 1 16 (fun _ e => e) src.at_ →
      ∃ d, transform 2 (plain 1) M 16 src (iterations 2 (plain 1) M 1 16) = some d ∧
        d.at_ (M.addr 16 0 8) = none := by
  refine ⟨{ form := .innerMod 16, lead := fun r e => r * 2 + e / 8, rows := 2 }, ⟨?_, ?_, ?_⟩, ?_⟩
  · intro r e _ _
    exact Nat.mod_lt _ (by omega)
  · intro r e hr he
    show r * 2 + e / 8 < 2
    omega
  · intro r e r' e' hr he hr' he' h
    have h' : (r * 2 + e / 8) * 16 + e % 16 = (r' * 2 + e' / 8) * 16 + e' % 16 := h
    omega
  · intro src hs _
    refine ⟨{ size := 32
              at_ := fun a => if 0 ≤ a ∧ a < 0 + 16 then src.at_ (0 + (a - 0)) else none }, ?_, ?_⟩
    · show loop _ [(0, 0)] _ = _
      simp [loop, copyTile, memcpy, tileLen, modVal, modOf, inspect, plain, Layout.addr, Layout.width,
        Layout.last, alloc, Layout.size, hs]
    · rfl

end Verif.Props
