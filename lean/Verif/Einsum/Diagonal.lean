import Verif.Einsum.Ops
import Mathlib.Algebra.BigOperators.Group.List.Lemmas

/-! # Diagonals -/

namespace Verif.Einsum

open Verif.Rewrite

variable {V : Type} [Inhabited V] {A : Alg V} {D : Char → ℕ}

/-! ### The mask -/

/-- The position of the second diagonal element of an array with `n` axes of extent `d`. -/
def step (d : ℕ) : ℕ → ℕ
  | 0 => 0
  | n + 1 => d ^ n + step d n

theorem step_mul (d n : ℕ) (hd : 2 ≤ d) : step d n * (d - 1) = d ^ n - 1 := by
  induction n with
  | zero => simp [step]
  | succ n ih =>
    have h1 : 1 ≤ d ^ n := Nat.one_le_pow _ _ (by omega)
    rw [step, Nat.add_mul, ih, pow_succ]
    obtain ⟨c, rfl⟩ : ∃ c, d = c + 1 := ⟨d - 1, by omega⟩
    rw [Nat.add_sub_cancel, Nat.mul_add, Nat.mul_one]
    omega

theorem step_eq (d n : ℕ) (hd : 2 ≤ d) : (d ^ n - 1) / (d - 1) = step d n := by
  rw [← step_mul d n hd]
  exact Nat.mul_div_cancel _ (by omega)

theorem prod_mask (subs : List Char) (x : Char) (d : ℕ) :
    (subs.map fun y => if y = x then d else 1).prod = d ^ subs.count x := by
  induction subs with
  | nil => simp
  | cons y subs ih =>
    rw [List.map_cons, List.prod_cons, ih, List.count_cons]
    by_cases h : y = x
    · simp [h, pow_succ, Nat.mul_comm]
    · simp [h]

theorem rowMajor_mask (subs : List Char) (x : Char) (d i : ℕ) :
    rowMajor (subs.map fun y => if y = x then d else 1) (subs.map fun y => if y = x then i else 0) =
      i * step d (subs.count x) := by
  induction subs with
  | nil => simp [rowMajor, step]
  | cons y subs ih =>
    rw [List.map_cons, List.map_cons, rowMajor, ih, prod_mask, List.count_cons]
    by_cases h : y = x
    · simp [h, step, Nat.mul_add]
    · simp [h]

theorem maskValues_gen (size δ : ℕ) (l : List ℕ) : ∀ (m : List Bool), m.length = size → (∀ i ∈ l, i * δ < size) →
    ∃ m', l.foldlM (fun m i => if i * δ < size then some (m.set (i * δ) true) else none) m = some m' ∧
      m'.length = size ∧ ∀ n < size, m'.getD n false = true ↔ m.getD n false = true ∨ ∃ i ∈ l, n = i * δ := by
  induction l with
  | nil => intro m hm _; exact ⟨m, rfl, hm, fun n _ => by simp⟩
  | cons i l ih =>
    intro m hm h
    obtain ⟨m', h1, h2, h3⟩ := ih (m.set (i * δ) true) (by simpa using hm) fun j hj => h j (by simp [hj])
    refine ⟨m', ?_, h2, fun n hn => ?_⟩
    · rw [List.foldlM_cons, if_pos (h i (by simp))]
      exact h1
    · rw [h3 n hn]
      have hi := h i (by simp)
      have : (m.set (i * δ) true).getD n false = true ↔ m.getD n false = true ∨ n = i * δ := by
        rw [List.getD_eq_getElem _ _ (by simpa [hm] using hn), List.getElem_set, List.getD_eq_getElem _ _ (by omega)]
        by_cases hni : i * δ = n
        · rw [if_pos hni]; simp [hni.symm]
        · rw [if_neg hni]
          constructor
          · exact .inl
          · rintro (h | h)
            · exact h
            · exact absurd h.symm hni
      rw [this]
      constructor
      · rintro ((h | h) | ⟨j, hj, h⟩)
        · exact .inl h
        · exact .inr ⟨i, by simp, h⟩
        · exact .inr ⟨j, by simp [hj], h⟩
      · rintro (h' | ⟨j, hj, h'⟩)
        · exact .inl (.inl h')
        · rcases List.mem_cons.1 hj with rfl | hj
          · exact .inl (.inr h')
          · exact .inr ⟨j, hj, h'⟩

theorem maskValues_spec {d n : ℕ} (hd : 2 ≤ d) :
    ∃ m, maskValues (d ^ n) d = some m ∧ m.length = d ^ n ∧
      ∀ k < d ^ n, m.getD k false = true ↔ ∃ i < d, k = i * step d n := by
  unfold maskValues
  rw [step_eq d n hd]
  obtain ⟨m, h1, h2, h3⟩ := maskValues_gen (d ^ n) (step d n) (List.range d) (List.replicate (d ^ n) false) (by simp) (by
    intro i hi
    have hi := List.mem_range.1 hi
    have h1 : 1 ≤ d ^ n := Nat.one_le_pow _ _ (by omega)
    have h2 := step_mul d n hd
    have h3 : i * step d n ≤ (d - 1) * step d n := Nat.mul_le_mul_right _ (by omega)
    rw [Nat.mul_comm (d - 1), h2] at h3
    omega)
  refine ⟨m, h1, h2, fun k hk => ?_⟩
  rw [h3 k hk]
  rw [List.getD_eq_getElem _ _ (by simpa using hk), List.getElem_replicate]
  simp

/-! ### Lists of axes -/

theorem pickFrom_map {α : Type} (d : α) : ∀ (l : List α) (k : ℕ) (ax : List ℕ), ax.Pairwise (· < ·) →
    (∀ a ∈ ax, k ≤ a ∧ a < k + l.length) → pickFrom ax k l = ax.map fun a => l.getD (a - k) d
  | [], k, ax, _, h => by
    have : ax = [] := List.eq_nil_iff_forall_not_mem.2 fun a ha => by
      have := h a ha
      simp at this
      omega
    rw [this]
    rfl
  | y :: l, k, ax, hs, h => by
    rw [pickFrom_cons]
    by_cases hk : k ∈ ax
    · rw [if_pos hk]
      cases ax with
      | nil => cases hk
      | cons b bx =>
        obtain ⟨hs1, hs2⟩ := List.pairwise_cons.1 hs
        have hb : b = k := by
          rcases List.mem_cons.1 hk with h' | h'
          · exact h'.symm
          · have := hs1 k h'
            have := (h b (by simp)).1
            omega
        subst hb
        have hpk : pickFrom (b :: bx) (b + 1) l = pickFrom bx (b + 1) l := by
          unfold pickFrom
          congr 1
          apply List.filter_congr
          intro q hq
          have := List.le_snd_of_mem_zipIdx hq
          rw [decide_eq_decide, List.mem_cons]
          constructor
          · rintro (h' | h')
            · omega
            · exact h'
          · exact .inr
        rw [hpk, pickFrom_map d l (b + 1) bx hs2 fun a ha => ⟨hs1 a ha, by
          have := (h a (by simp [ha])).2
          simp at this
          omega⟩, List.map_cons, Nat.sub_self, List.getD_cons_zero]
        congr 1
        refine List.map_congr_left fun a ha => ?_
        have := hs1 a ha
        rw [show a - b = a - (b + 1) + 1 by omega, List.getD_cons_succ]
    · rw [if_neg hk]
      have h1 : ∀ a ∈ ax, k + 1 ≤ a := fun a ha => by
        have := (h a ha).1
        rcases Nat.eq_or_lt_of_le this with h' | h'
        · exact absurd (h' ▸ ha) hk
        · exact h'
      rw [pickFrom_map d l (k + 1) ax hs fun a ha => ⟨h1 a ha, by
        have := (h a ha).2
        simp at this
        omega⟩]
      refine List.map_congr_left fun a ha => ?_
      have := h1 a ha
      rw [show a - k = a - (k + 1) + 1 by omega, List.getD_cons_succ]

theorem count_drop_pick {α : Type} [DecidableEq α] (y : α) (ax : List ℕ) : ∀ (k : ℕ) (l : List α),
    (dropFrom ax k l).count y + (pickFrom ax k l).count y = l.count y
  | _, [] => rfl
  | k, a :: l => by
    have := count_drop_pick y ax (k + 1) l
    rw [dropFrom_cons, pickFrom_cons, List.count_cons]
    by_cases h : k ∈ ax
    · rw [if_pos h, if_pos h, List.count_cons]; omega
    · rw [if_neg h, if_neg h, List.count_cons]; omega

theorem dropFrom_inj {α : Type} (ax : List ℕ) : ∀ {k : ℕ} {l m : List α}, l.length = m.length →
    dropFrom ax k l = dropFrom ax k m → ∀ j (h1 : j < l.length) (h2 : j < m.length), k + j ∉ ax → l[j] = m[j]
  | _, [], [], _, _, j, h1, _, _ => by simp at h1
  | k, a :: l, b :: m, hl, h, j, h1, h2, hj => by
    rw [dropFrom_cons, dropFrom_cons] at h
    have hl' : l.length = m.length := by simpa using hl
    have hrec : dropFrom ax (k + 1) l = dropFrom ax (k + 1) m := by
      by_cases hk : k ∈ ax
      · rwa [if_pos hk, if_pos hk] at h
      · rw [if_neg hk, if_neg hk] at h
        exact (List.cons.inj h).2
    cases j with
    | zero =>
      rw [if_neg (by simpa using hj), if_neg (by simpa using hj)] at h
      simpa using (List.cons.inj h).1
    | succ j =>
      have := dropFrom_inj ax hl' hrec j (by simpa using h1) (by simpa using h2)
        (by rw [show k + 1 + j = k + (j + 1) by omega]; exact hj)
      simpa using this

theorem sum_single {α : Type} [DecidableEq α] [AddCommMonoid V] {l : List α} {a : α} (hn : l.Nodup) (ha : a ∈ l)
    (f : α → V) (h : ∀ b ∈ l, b ≠ a → f b = 0) : (l.map f).sum = f a := by
  induction l with
  | nil => cases ha
  | cons b l ih =>
    obtain ⟨n1, n2⟩ := List.nodup_cons.1 hn
    rw [List.map_cons, List.sum_cons]
    by_cases hb : b = a
    · subst hb
      have : (l.map f).sum = 0 := List.sum_eq_zero fun v hv => by
        obtain ⟨c, hc, rfl⟩ := List.mem_map.1 hv
        exact h c (by simp [hc]) fun h' => n1 (h' ▸ hc)
      rw [this, add_zero]
    · rw [h b (by simp) hb, zero_add]
      exact ih n2 ((List.mem_cons.1 ha).resolve_left (Ne.symm hb)) fun c hc => h c (by simp [hc])

theorem bidx_map' (e g : Char → ℕ) (subs : List Char) :
    bidx (subs.map e) (subs.map g) = subs.map fun x => if e x = 1 then 0 else g x := by
  unfold bidx
  rw [List.length_map, List.length_map, Nat.sub_self, List.drop_zero, List.zipWith_map, List.zipWith_self]

/-! ### Diagonals -/

/-- What the decomposition assumes of the constants it compares with. -/
structure Truth (A : Alg V) : Prop where
  one : A.truth (A.ofInt 1) = true
  zero : A.truth (A.ofInt 0) = false

/-- One axis is left of those with the given subscript. -/
theorem count_diag {o : Out V} {x : Char} {a b : ℕ} {rest : List ℕ}
    (h : axesOf o (fun y => decide (y = x)) = a :: b :: rest) :
    (∀ y, (dropFrom (b :: rest) 0 o.subs).count y = if y = x then 1 else o.subs.count y) ∧
      o.subs.count x = (a :: b :: rest).length := by
  have hs := axesOf_sorted o (fun y => decide (y = x))
  rw [h] at hs
  have hl : ∀ c ∈ a :: b :: rest, c < o.subs.length ∧ o.subs.getD c ' ' = x := fun c hc => by
    rw [← h] at hc
    exact ⟨axesOf_lt hc, by simpa [Out.sub] using (List.mem_filter.1 hc).2⟩
  have hx : o.subs.count x = (a :: b :: rest).length := by
    have h1 := axesOf_pick o (fun y => decide (y = x))
    rw [h, pickFrom_map ' ' _ 0 _ hs (fun c hc => ⟨Nat.zero_le _, by simpa using (hl c hc).1⟩)] at h1
    have h2 := congrArg List.length h1
    rw [List.length_map] at h2
    rw [h2, List.count_eq_length_filter]
    congr 1
  refine ⟨fun y => ?_, hx⟩
  have h2 := count_drop_pick y (b :: rest) 0 o.subs
  rw [pickFrom_map ' ' _ 0 _ (List.pairwise_cons.1 hs).2 (fun c hc => ⟨Nat.zero_le _, by
    simpa using (hl c (List.mem_cons_of_mem _ hc)).1⟩)] at h2
  have h3 : ((b :: rest).map fun c => o.subs.getD (c - 0) ' ') = List.replicate (b :: rest).length x := by
    rw [List.eq_replicate_iff]
    refine ⟨by simp, fun z hz => ?_⟩
    obtain ⟨c, hc, rfl⟩ := List.mem_map.1 hz
    exact (hl c (List.mem_cons_of_mem _ hc)).2
  rw [h3, List.count_replicate] at h2
  by_cases hy : y = x
  · subst hy
    simp only [beq_self_eq_true, if_true] at h2 ⊢
    rw [hx] at h2
    simp only [List.length_cons] at h2 ⊢
    omega
  · rw [if_neg hy]
    rw [if_neg (by simpa using Ne.symm hy)] at h2
    omega

/-- Taking the diagonal along the axes with one subscript. -/
theorem diagonal_spec [CommRing V] (hA : RingAlg A) (hT : Truth A) {e : Char → ℕ} {o : Out V} (h : WF D e o)
    (hD : ∀ x, 0 < D x) {x : Char} (hx : 1 < o.subs.count x) :
    ∃ o', diagonal A o x = some o' ∧ WF D e o' ∧ (∀ y, o'.subs.count y = if y = x then 1 else o.subs.count y) ∧
      ∀ σ, (∀ x, σ x < D x) → den e o' σ = den e o σ := by
  have hlen : o.shape.length = o.subs.length := by rw [h.shape]; simp
  have hvl : o.value.shape.length = o.subs.length := by rw [h.value]; simp
  have hax : ((List.range o.shape.length).filter fun a => o.sub a = x) = axesOf o (fun y => decide (y = x)) := by
    unfold axesOf
    rw [hlen]
  obtain ⟨a, b, rest, habr⟩ : ∃ a b rest, axesOf o (fun y => decide (y = x)) = a :: b :: rest := by
    have h1 := axesOf_pick o (fun y => decide (y = x))
    rw [pickFrom_map ' ' _ 0 _ (axesOf_sorted _ _) (fun c hc => ⟨Nat.zero_le _, by simpa using axesOf_lt hc⟩)] at h1
    have h2 := congrArg List.length h1
    rw [List.length_map] at h2
    have h3 : o.subs.count x = (o.subs.filter fun y => decide (y = x)).length := by
      rw [List.count_eq_length_filter]
      congr 1
    match hax : axesOf o (fun y => decide (y = x)) with
    | [] => rw [hax] at h2; simp only [List.length_nil] at h2; omega
    | [a] => rw [hax] at h2; simp only [List.length_cons, List.length_nil] at h2; omega
    | a :: b :: rest => exact ⟨a, b, rest, rfl⟩
  obtain ⟨hcount, hcx⟩ := count_diag habr
  have hs := axesOf_sorted o (fun y => decide (y = x))
  rw [habr] at hs
  have hl : ∀ c ∈ a :: b :: rest, c < o.subs.length ∧ o.sub c = x := fun c hc => by
    rw [← habr] at hc
    exact ⟨axesOf_lt hc, by simpa using (List.mem_filter.1 hc).2⟩
  have hdim : ∀ c ∈ a :: b :: rest, o.dim c = e x := fun c hc => by
    rw [h.dim (hl c hc).1, (hl c hc).2]
  have hs' := (List.pairwise_cons.1 hs).2
  unfold diagonal
  rw [hax, habr]
  simp only
  rw [if_pos fun c hc => by rw [hdim c hc, hdim a (by simp)], hdim a (by simp)]
  by_cases h1 : e x = 1
  · rw [if_pos h1]
    obtain ⟨o', g1, g2, g3, g4⟩ := squeezeAxes_gen h hs' (fun c hc => (hl c (List.mem_cons_of_mem _ hc)).1)
      (fun c hc => (hdim c (List.mem_cons_of_mem _ hc)).trans h1)
    exact ⟨o', g1, g2, by rw [g3]; exact hcount, fun σ hσ => g4 _ fun y hy => pos_lt (h.dims y hy) (hσ y)⟩
  rw [if_neg h1]
  have hxm : x ∈ o.subs := List.count_pos_iff.1 (by omega)
  have hd2 : 2 ≤ e x := by
    rcases h.dims x hxm with h' | h'
    · exact absurd h' h1
    · have := hD x; omega
  generalize hd : e x = d at *
  -- the mask
  have hms : maskShape o x d = o.subs.map fun y => if y = x then d else 1 := by
    unfold maskShape
    apply List.ext_getElem
    · simp [hlen]
    · intro j hj1 hj2
      have hj : j < o.subs.length := by simpa using hj2
      simp only [List.getElem_map, List.getElem_range, Out.sub_eq hj]
  obtain ⟨m, hm1, hm2, hm3⟩ := maskValues_spec (n := o.subs.count x) hd2
  unfold maskAndSum
  rw [hms, prod_mask, hm1, Option.bind_some]
  have hmt : maskTensor A (o.subs.map fun y => if y = x then d else 1) m =
      some ⟨o.subs.map fun y => if y = x then d else 1, m.map fun b => A.ofInt (if b then 1 else 0), by
        simp [hm2, prod_mask]⟩ := by
    unfold maskTensor
    rw [dif_pos (by rw [hm2, prod_mask])]
  rw [hmt, Option.bind_some]
  set M : Tensor V := ⟨o.subs.map fun y => if y = x then d else 1, m.map fun b => A.ofInt (if b then 1 else 0), by
        simp [hm2, prod_mask]⟩ with hM
  have hMs : M.shape = o.subs.map fun y => if y = x then d else 1 := rfl
  have hMget : ∀ q, InBounds M.shape q → (A.truth (M.get q) = true ↔
      ∃ i < d, q = o.subs.map fun y => if y = x then i else 0) := by
    intro q hq
    have hlt := rowMajor_lt hq
    rw [hMs, prod_mask] at hlt
    have hg : M.get q = A.ofInt (if m.getD (rowMajor M.shape q) false then 1 else 0) := by
      unfold Tensor.get
      show (m.map _).getD _ _ = _
      rw [List.getD_eq_getElem _ _ (by rw [List.length_map, hm2]; exact hlt), List.getElem_map,
        List.getD_eq_getElem _ _ (by rw [hm2]; exact hlt)]
    have ht : A.truth (M.get q) = true ↔ m.getD (rowMajor M.shape q) false = true := by
      rw [hg]
      cases m.getD (rowMajor M.shape q) false
      · simp [hT.zero]
      · simp [hT.one]
    rw [ht, hm3 _ hlt]
    refine exists_congr fun i => and_congr_right fun hi => ?_
    rw [← rowMajor_mask]
    constructor
    · intro he
      refine rowMajor_inj (hMs ▸ hq) (map_inBounds (fun y _ => ?_)) he
      split <;> omega
    · intro he; rw [he]
  -- Where
  have hb1 : bshape M.shape o.value.shape = some o.value.shape := by
    rw [hMs, h.value]
    refine bshape_of_bto ⟨by simp, fun k hk => ?_⟩
    have hk' : k < o.subs.length := by simpa using hk
    simp only [List.length_map, Nat.sub_self, Nat.zero_add]
    rw [List.getD_eq_getElem _ _ (by simpa using hk'), List.getD_eq_getElem _ _ (by simpa using hk'), List.getElem_map,
      List.getElem_map]
    split
    · rename_i hx'; right; rw [hx', hd]
    · exact .inl rfl
  have hb2 : bshape o.value.shape (zeros A []).shape = some o.value.shape := by
    rw [bshape_comm]
    exact bshape_of_bto ⟨by simp [zeros], fun k hk => by simp [zeros] at hk⟩
  have hwh : where_ A.truth M o.value (zeros A []) = some (build o.value.shape fun i =>
      if A.truth (M.get (bidx M.shape i)) then o.value.get (bidx o.value.shape i)
      else (zeros A []).get (bidx (zeros A []).shape i)) := by
    unfold where_
    rw [hb1, Option.bind_some, hb2]
    rfl
  rw [typed_some hwh (by rw [build_shape, h.value, h.shape]), Option.bind_some]
  set w := build o.value.shape fun i =>
      if A.truth (M.get (bidx M.shape i)) then o.value.get (bidx o.value.shape i)
      else (zeros A []).get (bidx (zeros A []).shape i) with hw
  have hwget : ∀ i, InBounds (o.subs.map e) i → w.get i =
      if ∃ k < d, bidx M.shape i = o.subs.map fun y => if y = x then k else 0 then o.value.get i else 0 := by
    intro i hi
    have hi' : InBounds o.value.shape i := by rw [h.value]; exact hi
    rw [hw, get_build _ hi', bidx_self hi']
    have hz : (zeros A []).get (bidx (zeros A []).shape i) = (0 : V) := by
      have : (zeros A ([] : List ℕ)).shape = [] := rfl
      rw [this]
      have : bidx [] i = [] := by simp [bidx]
      rw [this]
      unfold zeros
      rw [get_build _ (by simp), hA.zero]
    rw [hz]
    refine if_congr (hMget _ ?_) rfl rfl
    exact (bto_bshape hb1).inBounds hi'
  -- the sum
  have hWF : WF D e { o with value := w } := ⟨h.shape, h.value, h.dims⟩
  obtain ⟨o', g1, g2, g3, g4⟩ := sumAxes_gen hA hWF hs' (fun c hc => (hl c (List.mem_cons_of_mem _ hc)).1) (fun hall =>
    h1 ((hdim b (by simp)).symm.trans (hall b (by simp))))
  have g3 : o'.subs = dropFrom (b :: rest) 0 o.subs := g3
  refine ⟨o', g1, g2, by rw [g3]; exact hcount, fun σ hσ => ?_⟩
  set g := pos e σ with hg
  have hgl : ∀ y ∈ o.subs, g y < e y := fun y hy => pos_lt (h.dims y hy) (hσ y)
  have hin0 : InBounds (o.subs.map e) (o.subs.map g) := map_inBounds hgl
  unfold den
  rw [g4 g fun y hy => pos_lt (g2.dims y hy) (hσ y)]
  simp only
  rw [sum_single (a := o.subs.map g) ((nodup_allIndices _).filter _)]
  · rw [hwget _ hin0, if_pos]
    have hgx : g x < d := hd ▸ hgl x hxm
    refine ⟨g x, hgx, ?_⟩
    have := bidx_map' (fun y => if y = x then d else 1) g o.subs
    rw [hMs, this]
    refine List.map_congr_left fun y hy => ?_
    by_cases hy' : y = x
    · simp only [hy', if_true]
      rw [if_neg h1]
    · simp [hy']
  · rw [List.mem_filter, mem_allIndices]
    exact ⟨hin0, by rw [g3, dropFrom_map]; simp⟩
  · intro p hp hne
    obtain ⟨hp1, hp2⟩ := List.mem_filter.1 hp
    rw [mem_allIndices] at hp1
    rw [decide_eq_true_eq, g3, ← dropFrom_map] at hp2
    rw [hwget p hp1, if_neg]
    rintro ⟨k, hk, hb⟩
    refine hne ?_
    have hpl : p.length = o.subs.length := by rw [hp1.length]; simp
    have hcoord : ∀ c ∈ a :: b :: rest, p.getD c 0 = k := by
      intro c hc
      obtain ⟨hc1, hc2⟩ := hl c hc
      rw [Out.sub_eq hc1] at hc2
      have := congrArg (fun l => l.getD c 0) hb
      rw [bidx_getD (by rw [hMs]; simp [hpl]) (by rw [hMs]; simpa using hc1), hMs] at this
      have q1 : ∀ f : Char → ℕ, (o.subs.map f).getD c 0 = f x := fun f => by
        rw [List.getD_eq_getElem _ _ (by simpa using hc1), List.getElem_map, hc2]
      rw [q1, q1, List.length_map, hpl, Nat.sub_self, Nat.zero_add] at this
      simp only [if_true] at this
      rwa [if_neg h1] at this
    have hkx : k = g x := by
      have h2 := hcoord a (by simp)
      obtain ⟨ha1, ha2⟩ := hl a (by simp)
      rw [Out.sub_eq ha1] at ha2
      have h3 := dropFrom_inj (b :: rest) (k := 0) (by simpa using hpl) hp2 a (by rw [hpl]; exact ha1) (by simpa using ha1) (by
        rw [Nat.zero_add]
        intro hm
        have := (List.pairwise_cons.1 hs).1 a hm
        omega)
      rw [List.getD_eq_getElem _ _ (by rw [hpl]; exact ha1), h3, List.getElem_map, ha2] at h2
      exact h2.symm
    apply List.ext_getElem
    · simpa using hpl
    · intro j hj1 hj2
      have hj : j < o.subs.length := by simpa using hj2
      by_cases hjm : j ∈ b :: rest
      · have h2 := hcoord j (List.mem_cons_of_mem _ hjm)
        rw [List.getD_eq_getElem _ _ hj1] at h2
        have h3 := (hl j (List.mem_cons_of_mem _ hjm)).2
        rw [Out.sub_eq hj] at h3
        rw [h2, List.getElem_map, h3, hkx]
      · exact dropFrom_inj (b :: rest) (k := 0) (by simpa using hpl) hp2 j hj1 hj2 (by rwa [Nat.zero_add])

/-- Taking all diagonals. -/
theorem diagonalize_spec [CommRing V] (hA : RingAlg A) (hT : Truth A) {order : List Char → List Char}
    (horder : ∀ l, (order l).Perm l) {e : Char → ℕ} {o : Out V} (h : WF D e o) (hD : ∀ x, 0 < D x) :
    ∃ o', diagonalize A order o = some o' ∧ WF D e o' ∧ o'.subs.Nodup ∧ (∀ y, y ∈ o'.subs ↔ y ∈ o.subs) ∧
      ∀ σ, (∀ x, σ x < D x) → den e o' σ = den e o σ := by
  unfold diagonalize
  have gen : ∀ (l : List Char) (o : Out V), l.Nodup → WF D e o → (∀ y, y ∈ l ↔ 1 < o.subs.count y) →
      ∃ o', l.foldlM (diagonal A) o = some o' ∧ WF D e o' ∧ o'.subs.Nodup ∧ (∀ y, y ∈ o'.subs ↔ y ∈ o.subs) ∧
        ∀ σ, (∀ x, σ x < D x) → den e o' σ = den e o σ := by
    intro l
    induction l with
    | nil =>
      intro o _ h hc
      refine ⟨o, rfl, h, ?_, fun _ => Iff.rfl, fun _ _ => rfl⟩
      rw [List.nodup_iff_count_le_one]
      intro y
      have := hc y
      by_contra hlt
      exact absurd (this.2 (by omega)) (by simp)
    | cons x l ih =>
      intro o hn h hc
      obtain ⟨n1, n2⟩ := List.nodup_cons.1 hn
      obtain ⟨o1, g1, g2, g3, g4⟩ := diagonal_spec hA hT h hD ((hc x).1 (by simp))
      obtain ⟨o', f1, f2, f3, f4, f5⟩ := ih o1 n2 g2 fun y => by
        rw [g3]
        by_cases hy : y = x
        · subst hy
          simp [n1]
        · rw [if_neg hy, ← hc y, List.mem_cons]
          simp [hy]
      refine ⟨o', ?_, f2, f3, fun y => ?_, fun σ hσ => by rw [f5 σ hσ, g4 σ hσ]⟩
      · rw [List.foldlM_cons, g1]
        exact f1
      · rw [f4, ← List.count_pos_iff, ← List.count_pos_iff, g3]
        by_cases hy : y = x
        · have := (hc x).1 (by simp)
          subst hy
          rw [if_pos rfl]
          omega
        · rw [if_neg hy]
  refine gen _ o ((horder _).nodup_iff.2 ((List.nodup_dedup _).filter _)) h fun y => ?_
  rw [(horder _).mem_iff]
  unfold duplicates
  rw [List.mem_filter, List.mem_dedup, decide_eq_true_eq]
  constructor
  · exact fun h => h.2
  · exact fun h => ⟨List.count_pos_iff.1 (by omega), h⟩

end Verif.Einsum
