import Verif.Layout.Model
import Mathlib.Tactic.Ring
import Mathlib.Tactic.Linarith
/-!
# Changes of layout: lemmas (C125)
-/
namespace Verif.Layout

variable {α : Type}

/-- A loop of copies. `len`, `dOff` and `sOff` are the arguments of the copy of a pair; `owner` is
the pair that writes element `(r, e)`. -/
theorem loop_holds (M : Layout) (R E : Nat) (x : Nat → Nat → α) (src : Mem α)
    (len dOff sOff : Nat → Nat → Nat) (valid : Nat → Nat → Prop) (owner : Nat → Nat → Nat)
    (hin : ∀ r t, valid r t → dOff r t + len r t ≤ M.size E ∧ sOff r t + len r t ≤ src.size)
    (hown : ∀ r e, r < R → e < E → dOff r (owner r e) ≤ M.addr E r e ∧
      M.addr E r e < dOff r (owner r e) + len r (owner r e) ∧
      src.at_ (sOff r (owner r e) + (M.addr E r e - dOff r (owner r e))) = some (x r e))
    (huniq : ∀ r t, valid r t → ∀ r' e', r' < R → e' < E → dOff r t ≤ M.addr E r' e' →
      M.addr E r' e' < dOff r t + len r t → r = r' ∧ t = owner r' e')
    (l : List (Nat × Nat)) (hl : ∀ p ∈ l, valid p.1 p.2) (d : Mem α) (hd : d.size = M.size E)
    (done : Nat → Nat → Prop)
    (hdone : ∀ r e, r < R → e < E → done r (owner r e) → d.at_ (M.addr E r e) = some (x r e)) :
    ∃ d', loop (fun d r t => memcpy d src (len r t) (dOff r t) (sOff r t)) l d = some d' ∧
      d'.size = M.size E ∧
      ∀ r e, r < R → e < E → (done r (owner r e) ∨ (r, owner r e) ∈ l) →
        d'.at_ (M.addr E r e) = some (x r e) := by
  induction l generalizing d done with
  | nil =>
    refine ⟨d, rfl, hd, ?_⟩
    intro r e hr he h
    rcases h with h | h
    · exact hdone r e hr he h
    · simp at h
  | cons p l ih =>
    obtain ⟨r, t⟩ := p
    have hv : valid r t := hl (r, t) List.mem_cons_self
    have hb := hin r t hv
    let d1 : Mem α := { size := d.size
                        at_ := fun a => if dOff r t ≤ a ∧ a < dOff r t + len r t then
                            src.at_ (sOff r t + (a - dOff r t)) else d.at_ a }
    have hstep : memcpy d src (len r t) (dOff r t) (sOff r t) = some d1 := by
      unfold memcpy
      rw [hd, if_pos hb]
      simp [d1, hd]
    obtain ⟨d', h1, h2, h3⟩ := ih (fun p hp => hl p (List.mem_cons_of_mem _ hp)) d1 hd
      (fun a b => done a b ∨ (a = r ∧ b = t)) (by
        intro r' e' hr' he' hor
        show (if dOff r t ≤ M.addr E r' e' ∧ M.addr E r' e' < dOff r t + len r t then
          src.at_ (sOff r t + (M.addr E r' e' - dOff r t)) else d.at_ (M.addr E r' e')) = _
        by_cases hx : dOff r t ≤ M.addr E r' e' ∧ M.addr E r' e' < dOff r t + len r t
        · rw [if_pos hx]
          obtain ⟨rfl, rfl⟩ := huniq r t hv r' e' hr' he' hx.1 hx.2
          exact (hown r e' hr' he').2.2
        · rw [if_neg hx]
          rcases hor with h | ⟨rfl, h⟩
          · exact hdone r' e' hr' he' h
          · have := hown r' e' hr' he'
            rw [h] at this
            exact (hx ⟨this.1, this.2.1⟩).elim)
    refine ⟨d', ?_, h2, ?_⟩
    · simp only [loop, hstep]
      exact h1
    · intro r' e' hr' he' h
      apply h3 r' e' hr' he'
      rcases h with h | h
      · exact Or.inl (Or.inl h)
      · rcases List.mem_cons.1 h with h | h
        · exact Or.inl (Or.inr ⟨(Prod.mk.inj h).1, (Prod.mk.inj h).2⟩)
        · exact Or.inr h

theorem mem_pairs (R T r t : Nat) : (r, t) ∈ pairs R T ↔ r < R ∧ t < T := by
  unfold pairs
  simp only [List.mem_flatMap, List.mem_range, List.mem_map, Prod.mk.injEq]
  constructor
  · rintro ⟨a, ha, b, hb, rfl, rfl⟩
    exact ⟨ha, hb⟩
  · rintro ⟨h1, h2⟩
    exact ⟨r, h1, t, h2, rfl, rfl⟩

theorem addr_lt (L : Layout) (R E r e : Nat) (h : L.Ok R E) (hr : r < R) (he : e < E) :
    L.addr E r e < L.size E := by
  have h1 := h.last_lt r e hr he
  have h2 := h.lead_lt r e hr he
  unfold Layout.addr Layout.size
  calc L.lead r e * L.width E + L.last r e < L.lead r e * L.width E + L.width E := by omega
    _ = (L.lead r e + 1) * L.width E := by ring
    _ ≤ L.rows * L.width E := Nat.mul_le_mul_right _ h2

/-- Two elements in the same row of the memory, without a remainder: the same row of the tensor. -/
theorem same_lead_inner (L : Layout) (R E r e r' e' : Nat) (h : L.Ok R E) (hg : L.Regular R E)
    (hf : L.form = .inner) (hr : r < R) (he : e < E) (hr' : r' < R) (he' : e' < E)
    (hl : L.lead r e = L.lead r' e') : r = r' := by
  have g1 := (hg r e hr he).1 hf
  have g2 := (hg r' e' hr' he').1 hf
  have : L.addr E r 0 = L.addr E r' 0 := by
    unfold Layout.addr Layout.last
    rw [← g1, ← g2, hl, hf]
  exact (h.inj r 0 r' 0 hr (by omega) hr' (by omega) this).1

/-- Two elements in the same row of the memory, with a remainder: the same tile. -/
theorem same_lead_mod (L : Layout) (R E r e r' e' m : Nat) (h : L.Ok R E) (hg : L.Regular R E)
    (hf : L.form = .innerMod m) (hp : 0 < m) (hr : r < R) (he : e < E) (hr' : r' < R)
    (he' : e' < E) (hl : L.lead r e = L.lead r' e') : r = r' ∧ e / m = e' / m := by
  have g1 := (hg r e hr he).2 m hf
  have g2 := (hg r' e' hr' he').2 m hf
  have l1 : e / m * m ≤ e := Nat.div_mul_le_self e m
  have l2 : e' / m * m ≤ e' := Nat.div_mul_le_self e' m
  have : L.addr E r (e / m * m) = L.addr E r' (e' / m * m) := by
    unfold Layout.addr Layout.last
    rw [← g1, ← g2, hl, hf]
    simp
  obtain ⟨q1, q2⟩ := h.inj r _ r' _ hr (by omega) hr' (by omega) this
  exact ⟨q1, Nat.eq_of_mul_eq_mul_right hp q2⟩

/-- Within a tile, addresses follow each other. -/
theorem addr_tile (L : Layout) (R E r e m : Nat) (hg : L.Regular R E) (hr : r < R)
    (he : e < E) (hf : L.form = .inner ∨ L.form = .innerMod m) :
    L.addr E r e = L.addr E r (e / m * m) + e % m := by
  have hd := Nat.div_add_mod e m
  have hle : e / m * m ≤ e := Nat.div_mul_le_self e m
  have hmul : m * (e / m) = e / m * m := Nat.mul_comm _ _
  rcases hf with hf | hf
  · have g1 := (hg r e hr he).1 hf
    have g2 := (hg r (e / m * m) hr (by omega)).1 hf
    unfold Layout.addr Layout.last
    rw [hf, g1, g2]
    simp only
    omega
  · have g1 := (hg r e hr he).2 m hf
    unfold Layout.addr Layout.last
    rw [hf, g1]
    simp

/-- `q` is the quotient when the difference is less than the divisor. -/
theorem lead_eq (a b w x y : Nat) (hx : x < w) (hy : y < w) (h : a * w + x = b * w + y) :
    a = b ∧ x = y := by
  have hw : 0 < w := by omega
  have h1 : (a * w + x) / w = a := by
    rw [Nat.mul_comm, Nat.mul_add_div hw, Nat.div_eq_of_lt hx]; rfl
  have h2 : (b * w + y) / w = b := by
    rw [Nat.mul_comm, Nat.mul_add_div hw, Nat.div_eq_of_lt hy]; rfl
  have hab : a = b := by rw [← h1, ← h2, h]
  subst hab
  exact ⟨rfl, by omega⟩

theorem tile_lt (E m t : Nat) (hm : 0 < m) (ht : t < (E + m - 1) / m) : t * m < E := by
  have := (Nat.lt_iff_add_one_le.1 ht)
  have h2 := (Nat.le_div_iff_mul_le hm).1 this
  have : (t + 1) * m = t * m + m := by ring
  omega

theorem div_lt_tiles (E m e : Nat) (hm : 0 < m) (he : e < E) : e / m < (E + m - 1) / m := by
  rw [Nat.lt_iff_add_one_le, Nat.le_div_iff_mul_le hm]
  have h1 : (e / m + 1) * m = e / m * m + m := by ring
  have h2 : e / m * m ≤ e := Nat.div_mul_le_self e m
  omega

/-- A tile that starts before the end is followed by a whole tile when the tiles divide the row. -/
theorem tile_le (E m t : Nat) (hd : m ∣ E) (ht : t * m < E) : t * m + m ≤ E := by
  obtain ⟨k, rfl⟩ := hd
  have hk : t < k := by
    by_contra hc
    have : m * k ≤ t * m := by rw [Nat.mul_comm]; exact Nat.mul_le_mul_right _ (by omega)
    omega
  calc t * m + m = m * (t + 1) := by ring
    _ ≤ m * k := Nat.mul_le_mul_left _ hk

/-- What is copied at a tile is inside of the memory. -/
theorem tile_in (L : Layout) (R E r t m len : Nat) (h : L.Ok R E) (hr : r < R) (ht : t * m < E)
    (hf : L.form = .inner ∧ t * m + len ≤ E ∨ L.form = .innerMod m ∧ len ≤ m) :
    L.addr E r (t * m) + len ≤ L.size E := by
  have h2 := h.lead_lt r (t * m) hr ht
  rcases hf with ⟨hf, hl⟩ | ⟨hf, hl⟩
  · unfold Layout.addr Layout.size Layout.width Layout.last
    rw [hf]
    simp only
    calc L.lead r (t * m) * E + t * m + len ≤ (L.lead r (t * m) + 1) * E := by
          have : (L.lead r (t * m) + 1) * E = L.lead r (t * m) * E + E := by ring
          omega
      _ ≤ L.rows * E := Nat.mul_le_mul_right _ h2
  · unfold Layout.addr Layout.size Layout.width Layout.last
    rw [hf]
    simp only [Nat.mul_mod_left]
    calc L.lead r (t * m) * m + 0 + len ≤ (L.lead r (t * m) + 1) * m := by
          have : (L.lead r (t * m) + 1) * m = L.lead r (t * m) * m + m := by ring
          omega
      _ ≤ L.rows * m := Nat.mul_le_mul_right _ h2

/-- A tile is not written by the copy of another one. -/
theorem tile_uniq (M : Layout) (R E r t m len r' e' : Nat) (h : M.Ok R E) (hg : M.Regular R E)
    (hm : 0 < m) (hr : r < R) (ht : t * m < E) (hr' : r' < R) (he' : e' < E) (hl : len ≤ m)
    (hf : M.form = .inner ∧ t * m + len ≤ E ∨ M.form = .innerMod m)
    (h1 : M.addr E r (t * m) ≤ M.addr E r' e') (h2 : M.addr E r' e' < M.addr E r (t * m) + len) :
    r = r' ∧ t = e' / m := by
  obtain ⟨k, hk⟩ := Nat.exists_eq_add_of_le h1
  have hkl : k < len := by omega
  rcases hf with ⟨hf, hl2⟩ | hf
  · have e1 : M.addr E r (t * m) = M.lead r (t * m) * E + t * m := by
      unfold Layout.addr Layout.width Layout.last; rw [hf]
    have e2 : M.addr E r' e' = M.lead r' e' * E + e' := by
      unfold Layout.addr Layout.width Layout.last; rw [hf]
    rw [e1, e2] at hk
    obtain ⟨q1, q2⟩ := lead_eq (M.lead r' e') (M.lead r (t * m)) E e' (t * m + k) he' (by omega)
      (by omega)
    refine ⟨same_lead_inner M R E r (t * m) r' e' h hg hf hr ht hr' he' q1.symm, ?_⟩
    rw [q2, Nat.mul_comm, Nat.mul_add_div hm, Nat.div_eq_of_lt (by omega)]
    rfl
  · have e1 : M.addr E r (t * m) = M.lead r (t * m) * m := by
      unfold Layout.addr Layout.width Layout.last; rw [hf]; simp
    have e2 : M.addr E r' e' = M.lead r' e' * m + e' % m := by
      unfold Layout.addr Layout.width Layout.last; rw [hf]
    rw [e1, e2] at hk
    obtain ⟨q1, -⟩ := lead_eq (M.lead r' e') (M.lead r (t * m)) m (e' % m) k (Nat.mod_lt _ hm)
      (by omega) (by omega)
    obtain ⟨a, b⟩ := same_lead_mod M R E r (t * m) r' e' m h hg hf hm hr ht hr' he' q1.symm
    rw [Nat.mul_div_cancel _ hm] at b
    exact ⟨a, b⟩

/-- Copies of tiles. -/
theorem tiles_holds (L M : Layout) (R E m : Nat) (x : Nat → Nat → α) (src : Mem α)
    (len : Nat → Nat) (hm : 0 < m) (hL : L.Ok R E) (hM : M.Ok R E) (gL : L.Regular R E)
    (gM : M.Regular R E) (fL : L.form = .inner ∨ L.form = .innerMod m)
    (fM : M.form = .inner ∨ M.form = .innerMod m)
    (hs : src.size = L.size E) (hx : Holds L R E x src.at_)
    (hlen : ∀ t, t * m < E → len t ≤ m ∧
      (L.form = .inner ∨ M.form = .inner → t * m + len t ≤ E))
    (hlen2 : ∀ e, e < E → e % m < len (e / m))
    (l : List (Nat × Nat)) (hl : l.Perm (pairs R ((E + m - 1) / m))) :
    ∃ d', loop (fun d r t => memcpy d src (len t) (M.addr E r (t * m)) (L.addr E r (t * m))) l
        (alloc α M E) = some d' ∧ d'.size = M.size E ∧ Holds M R E x d'.at_ := by
  obtain ⟨d', h1, h2, h3⟩ := loop_holds M R E x src (fun _ t => len t)
    (fun r t => M.addr E r (t * m)) (fun r t => L.addr E r (t * m))
    (fun r t => r < R ∧ t * m < E) (fun _ e => e / m)
    (by
      intro r t ⟨hr, ht⟩
      obtain ⟨a, b⟩ := hlen t ht
      constructor
      · apply tile_in M R E r t m _ hM hr ht
        rcases fM with f | f
        · exact Or.inl ⟨f, b (Or.inr f)⟩
        · exact Or.inr ⟨f, a⟩
      · rw [hs]
        apply tile_in L R E r t m _ hL hr ht
        rcases fL with f | f
        · exact Or.inl ⟨f, b (Or.inl f)⟩
        · exact Or.inr ⟨f, a⟩)
    (by
      intro r e hr he
      have a1 := addr_tile M R E r e m gM hr he fM
      have a2 := addr_tile L R E r e m gL hr he fL
      have a3 := hlen2 e he
      refine ⟨by omega, by omega, ?_⟩
      have : M.addr E r e - M.addr E r (e / m * m) = e % m := by omega
      rw [this, ← a2]
      exact hx r e hr he)
    (by
      intro r t ⟨hr, ht⟩ r' e' hr' he' h1 h2
      obtain ⟨a, b⟩ := hlen t ht
      apply tile_uniq M R E r t m (len t) r' e' hM gM hm hr ht hr' he' a _ h1 h2
      rcases fM with f | f
      · exact Or.inl ⟨f, b (Or.inr f)⟩
      · exact Or.inr f)
    l
    (by
      rintro ⟨r, t⟩ hp
      have := (mem_pairs _ _ _ _).1 (hl.mem_iff.1 hp)
      exact ⟨this.1, tile_lt E m t hm this.2⟩)
    (alloc α M E) rfl (fun _ _ => False) (fun _ _ _ _ h => h.elim)
  refine ⟨d', h1, h2, ?_⟩
  intro r e hr he
  apply h3 r e hr he
  right
  rw [hl.mem_iff, mem_pairs]
  exact ⟨hr, div_lt_tiles E m e hm he⟩

/-- Copies of elements. -/
theorem elements_holds (L M : Layout) (R E : Nat) (x : Nat → Nat → α) (src : Mem α)
    (hL : L.Ok R E) (hM : M.Ok R E) (hs : src.size = L.size E) (hx : Holds L R E x src.at_)
    (l : List (Nat × Nat)) (hl : l.Perm (pairs R E)) :
    ∃ d', loop (copyElement L M E src) l (alloc α M E) = some d' ∧ d'.size = M.size E ∧
      Holds M R E x d'.at_ := by
  obtain ⟨d', h1, h2, h3⟩ := loop_holds M R E x src (fun _ _ => 1)
    (fun r e => M.addr E r e) (fun r e => L.addr E r e)
    (fun r e => r < R ∧ e < E) (fun _ e => e)
    (by
      intro r e ⟨hr, he⟩
      have a := addr_lt M R E r e hM hr he
      have b := addr_lt L R E r e hL hr he
      show _ + 1 ≤ _ ∧ _ + 1 ≤ _
      omega)
    (by
      intro r e hr he
      refine ⟨le_refl _, Nat.lt_succ_self _, ?_⟩
      rw [Nat.sub_self]
      exact hx r e hr he)
    (by
      intro r t ⟨hr, ht⟩ r' e' hr' he' h1 h2
      exact hM.inj r t r' e' hr ht hr' he' (by omega))
    l
    (by
      rintro ⟨r, t⟩ hp
      exact (mem_pairs _ _ _ _).1 (hl.mem_iff.1 hp))
    (alloc α M E) rfl (fun _ _ => False) (fun _ _ _ _ h => h.elim)
  refine ⟨d', h1, h2, ?_⟩
  intro r e hr he
  apply h3 r e hr he
  right
  rw [hl.mem_iff, mem_pairs]
  exact ⟨hr, he⟩

/-- When tiles are copied: the forms of the two layouts. -/
theorem useTiles_forms (rank : Nat) (L M : Layout) (h : useTiles rank L M = true) :
    ∃ m, 0 < m ∧ modVal L M = m ∧
      ((L.form = .innerMod m ∧ M.form = .inner ∧ modOf M = 0) ∨
       (L.form = .inner ∧ M.form = .innerMod m ∧ modOf M = m) ∨
       (L.form = .innerMod m ∧ M.form = .innerMod m ∧ modOf M = m)) := by
  unfold useTiles at h
  unfold modVal modOf
  cases hL : L.form <;> cases hM : M.form <;> simp only [inspect, hL, hM] at h ⊢ <;>
    first
    | (exfalso; revert h; simp [goodMods]; done)
    | (exfalso; revert h; split <;> simp; done)
    | skip
  · rename_i m
    by_cases hm : m > 0
    · refine ⟨m, hm, ?_, ?_⟩ <;> simp [hm]
    · simp [hm] at h
  · rename_i m
    by_cases hm : m > 0
    · refine ⟨m, hm, ?_, ?_⟩ <;> simp [hm]
    · simp [hm] at h
  · rename_i m n
    by_cases hm : m > 0
    · by_cases hn : n > 0
      · simp [hm, hn, goodMods] at h
        obtain ⟨-, rfl⟩ := h
        refine ⟨m, hm, ?_, Or.inr (Or.inr ⟨rfl, rfl, ?_⟩)⟩ <;> simp [hm]
      · simp [hn] at h
    · simp [hm] at h

/-- The plain layout is good. -/
theorem plain_ok (R E : Nat) : (plain R).Ok R E ∧ (plain R).Regular R E := by
  refine ⟨⟨?_, ?_, ?_⟩, ?_⟩
  · intro r e _ he
    exact he
  · intro r e hr _
    exact hr
  · intro r e r' e' _ he _ he' h
    exact lead_eq r r' E e e' he he' h
  · intro r e _ _
    refine ⟨fun _ => rfl, ?_⟩
    intro m h
    cases h

/-- The layout of tiles is good. -/
theorem tiled_ok (R E m : Nat) (hm : 0 < m) :
    (tiled R E m).Ok R E ∧ (tiled R E m).Regular R E := by
  have key : ∀ r e r' e', e < E → e' < E →
      r * ((E + m - 1) / m) + e / m = r' * ((E + m - 1) / m) + e' / m → r = r' ∧ e / m = e' / m := by
    intro r e r' e' he he' h
    exact lead_eq r r' _ _ _ (div_lt_tiles E m e hm he) (div_lt_tiles E m e' hm he') h
  refine ⟨⟨?_, ?_, ?_⟩, ?_⟩
  · intro r e _ _
    exact Nat.mod_lt _ hm
  · intro r e hr he
    have h1 := div_lt_tiles E m e hm he
    show r * ((E + m - 1) / m) + e / m < R * ((E + m - 1) / m)
    calc r * ((E + m - 1) / m) + e / m < (r + 1) * ((E + m - 1) / m) := by
          have : (r + 1) * ((E + m - 1) / m) = r * ((E + m - 1) / m) + (E + m - 1) / m := by ring
          omega
      _ ≤ R * ((E + m - 1) / m) := Nat.mul_le_mul_right _ hr
  · intro r e r' e' _ he _ he' h
    obtain ⟨a, b⟩ := lead_eq _ _ m (e % m) (e' % m) (Nat.mod_lt _ hm) (Nat.mod_lt _ hm) h
    obtain ⟨c, d⟩ := key r e r' e' he he' a
    refine ⟨c, ?_⟩
    rw [← Nat.div_add_mod e m, ← Nat.div_add_mod e' m, d, b]
  · intro r e _ _
    refine ⟨fun h => (by cases h), ?_⟩
    intro m' h
    have : m = m' := Form.innerMod.inj h
    subst this
    show r * _ + e / m = r * _ + e / m * m / m
    rw [Nat.mul_div_cancel _ hm]

end Verif.Layout
