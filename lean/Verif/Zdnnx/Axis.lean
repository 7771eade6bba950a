import Verif.Zdnnx.Addr

/-! The tiles along one dimension.  `u` is the number of positions that share a page: 64 for `e1`,
32 for `e2` and 1 for the others. -/

namespace Verif.Zdnnx

/-- A dimension of size `s` in tiles of size `t`, of which `d` is the size in the descriptor. -/
structure Ax (u s t d n ie : ℕ) : Prop where
  u0 : 0 < u
  s0 : 0 < s
  t0 : 0 < t
  n_eq : n = cdiv s t
  al : t % u = 0 ∨ t = s
  dd : d = t ∨ (d = 1 ∧ s = 1)
  lt : ie < n

theorem cdiv_self {t : ℕ} (h : 0 < t) : cdiv t t = 1 := by
  have := cdiv_mul (a := 1) h
  rwa [Nat.mul_one] at this

theorem cdiv_one_left {t : ℕ} (h : 0 < t) : cdiv 1 t = 1 := by
  unfold cdiv
  have : 1 + t - 1 = t := by omega
  rw [this, Nat.div_self h]

theorem cdiv_one_right (a : ℕ) : cdiv a 1 = a := by unfold cdiv; simp

theorem cdiv_eq_one {a b : ℕ} (ha : 0 < a) (hb : 0 < b) (h : a ≤ b) : cdiv a b = 1 := by
  have h1 : cdiv a b ≤ 1 := (cdiv_le_iff hb).2 (by omega)
  have h2 := cdiv_pos ha hb
  omega

namespace Ax
variable {u s t d n ie : ℕ}

theorem off_lt (h : Ax u s t d n ie) : ie * t < s := by
  have h1 := h.lt
  rw [h.n_eq, lt_cdiv_iff h.t0] at h1
  rwa [Nat.mul_comm]

theorem aligned (h : Ax u s t d n ie) (h0 : ie ≠ 0) : t % u = 0 ∧ d = t := by
  have h1 := h.off_lt
  have h2 : t ≤ ie * t := Nat.le_mul_of_pos_left t (by omega)
  have h3 := h.t0
  refine ⟨?_, ?_⟩
  · rcases h.al with h4 | h4
    · exact h4
    · omega
  · rcases h.dd with h4 | ⟨_, h4⟩
    · exact h4
    · omega

theorem off_mod (h : Ax u s t d n ie) (l : ℕ) : (ie * t + l) % u = l % u := by
  by_cases h0 : ie = 0
  · subst h0; simp
  · obtain ⟨c, hc⟩ := Nat.dvd_of_mod_eq_zero (h.aligned h0).1
    have : ie * t = u * (ie * c) := by rw [hc]; ring
    rw [this, Nat.mul_add_mod]

theorem off_div (h : Ax u s t d n ie) (l : ℕ) : (ie * t + l) / u = l / u + ie * cdiv d u := by
  by_cases h0 : ie = 0
  · subst h0; simp
  · obtain ⟨ha, hd⟩ := h.aligned h0
    obtain ⟨c, hc⟩ := Nat.dvd_of_mod_eq_zero ha
    have h1 : cdiv d u = c := by rw [hd, hc]; exact cdiv_mul h.u0
    have : ie * t = u * (ie * c) := by rw [hc]; ring
    rw [this, h1, Nat.mul_add_div h.u0, Nat.add_comm]

theorem n_one (h : Ax u s t d n ie) (he : cdiv d u = cdiv s u) : n = 1 := by
  rcases h.dd with hd | ⟨_, hs⟩
  · rcases h.al with ha | ha
    · obtain ⟨c, hc⟩ := Nat.dvd_of_mod_eq_zero ha
      have h1 : cdiv d u = c := by rw [hd, hc]; exact cdiv_mul h.u0
      have h2 := le_mul_cdiv (a := s) h.u0
      rw [← he, h1, ← hc] at h2
      rw [h.n_eq]
      exact cdiv_eq_one h.s0 h.t0 h2
    · rw [h.n_eq, ha]; exact cdiv_self h.s0
  · rw [h.n_eq, hs]; exact cdiv_one_left h.t0

theorem ie_zero (h : Ax u s t d n ie) (he : cdiv d u = cdiv s u) : ie = 0 := by
  have h1 := h.n_one he
  have h2 := h.lt
  omega

theorem n_unit (h : Ax u s t d n ie) (he : cdiv d u = 1) : n = cdiv s u := by
  rcases h.dd with hd | ⟨_, hs⟩
  · rcases h.al with ha | ha
    · obtain ⟨c, hc⟩ := Nat.dvd_of_mod_eq_zero ha
      have h1 : cdiv d u = c := by rw [hd, hc]; exact cdiv_mul h.u0
      rw [he] at h1
      rw [h.n_eq, hc, ← h1, Nat.mul_one]
    · rw [h.n_eq, ha, cdiv_self h.s0, ← he, hd, ha]
  · rw [h.n_eq, hs, cdiv_one_left h.t0, cdiv_one_left h.u0]

/-- The size of the tile at the index. -/
theorem exact_eq (h : Ax u s t d n ie) :
    (if ie = n - 1 then s - t * (n - 1) else t) = min t (s - ie * t) := by
  have h1 := h.off_lt
  by_cases hc : ie = n - 1
  · rw [if_pos hc, ← hc]
    have h2 := le_mul_cdiv (a := s) h.t0
    rw [← h.n_eq] at h2
    have h3 : t * n = ie * t + t := by
      have : n = ie + 1 := by have := h.lt; omega
      rw [this]; ring
    rw [Nat.mul_comm t ie]
    omega
  · rw [if_neg hc]
    have h2 : ie + 1 < n := by have := h.lt; omega
    rw [h.n_eq, lt_cdiv_iff h.t0] at h2
    have h3 : t * (ie + 1) = ie * t + t := by ring
    omega

end Ax

/-- The size of a tile in its descriptor: the exact one or that of the largest tiles. -/
def TileSize (s t d ie T : ℕ) : Prop := T = d ∨ T = min t (s - ie * t)

namespace Ax
variable {u s t d n ie T : ℕ}

theorem tile_pos (h : Ax u s t d n ie) (hT : TileSize s t d ie T) : 0 < T := by
  have h1 := h.off_lt
  have h2 := h.t0
  rcases hT with hT | hT
  · rcases h.dd with hd | hd <;> omega
  · omega

theorem tile_le (h : Ax u s t d n ie) (hT : TileSize s t d ie T) : cdiv T u ≤ cdiv d u := by
  rcases hT with hT | hT
  · rw [hT]
  · apply cdiv_mono h.u0
    rcases h.dd with hd | ⟨hd, hs⟩
    · omega
    · omega

theorem tile_full (h : Ax u s t d n ie) (hT : TileSize s t d ie T) (he : cdiv d u = cdiv s u) :
    cdiv T u = cdiv s u := by
  rcases hT with hT | hT
  · rw [hT, he]
  · have h0 := h.ie_zero he
    rw [hT, h0]
    rcases h.dd with hd | ⟨_, hs⟩
    · rcases Nat.le_total t s with hle | hle
      · rw [show min t (s - 0 * t) = t by omega, ← hd, he]
      · rw [show min t (s - 0 * t) = s by omega]
    · have := h.t0
      rw [show min t (s - 0 * t) = s by omega]

/-- Positions of the tensor in the padding of an exact tile do not exist. -/
theorem inside_tile (h : Ax u s t d n ie) (hT : T = min t (s - ie * t)) {l : ℕ}
    (hl : l / u < cdiv T u) (hi : ie * t + l < s) : l < T := by
  rw [hT]
  have h1 : l < s - ie * t := by omega
  rcases h.al with ha | ha
  · obtain ⟨c, hc⟩ := Nat.dvd_of_mod_eq_zero ha
    have h2 : cdiv T u ≤ c := by
      rw [cdiv_le_iff h.u0, ← hc]; omega
    have h3 : l < t := by
      rw [hc, Nat.mul_comm, ← Nat.div_lt_iff_lt_mul h.u0]; omega
    omega
  · omega

theorem glob_lt (_ : Ax u s t d n ie) (hT : T = min t (s - ie * t)) {l : ℕ} (hl : l < T) :
    ie * t + l < s := by omega

theorem glob_div (h : Ax u s t d n ie) (hT : T = min t (s - ie * t)) {l : ℕ} (hl : l < T) :
    (ie * t + l) / t = ie := by
  rw [Nat.mul_comm, Nat.mul_add_div h.t0, Nat.div_eq_of_lt (by omega), Nat.add_zero]

theorem loc_lt (h : Ax u s t d n ie) (hT : T = min t (s - ie * t)) {i : ℕ} (hi : i < s)
    (hd : i / t = ie) : i % t < T := by
  have h1 := Nat.mod_lt i h.t0
  have h2 := Nat.div_add_mod i t
  rw [hd, Nat.mul_comm] at h2
  omega

end Ax

theorem Ax.glob_loc {t ie i : ℕ} (hd : i / t = ie) : ie * t + i % t = i := by
  rw [← hd, Nat.mul_comm]; exact Nat.div_add_mod i t

theorem div_lt_cdiv {s t i : ℕ} (ht : 0 < t) (hi : i < s) : i / t < cdiv s t := by
  rw [lt_cdiv_iff ht]
  have := Nat.div_mul_le_self i t
  rw [Nat.mul_comm]; omega

theorem innerTile_pos {u s z : ℕ} (hu : 0 < u) (hs : 0 < s) : 0 < innerTile u s z := by
  unfold innerTile
  split
  · exact hs
  · split
    · exact Nat.mul_pos (cdiv_pos (by omega) hu) hu
    · omega

theorem innerTile_al {u s z : ℕ} : innerTile u s z % u = 0 ∨ innerTile u s z = s := by
  unfold innerTile
  split
  · exact Or.inr rfl
  · split
    · exact Or.inl (Nat.mul_mod_left _ _)
    · rename_i h1 h2
      push Not at h2
      by_cases h : z = s
      · exact Or.inr h
      · exact Or.inl (h2 h)

theorem outerTile_eq (s z : ℕ) : outerTile s z = innerTile 1 s z := by
  unfold outerTile innerTile
  split
  · rfl
  · rw [if_neg (by rw [Nat.mod_one]; simp)]

end Verif.Zdnnx
