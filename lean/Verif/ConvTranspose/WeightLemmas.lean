import Verif.ConvTranspose.UpLemmas

/-! # The weights of the convolution -/

namespace Verif.ConvTranspose

open Verif.Rewrite

variable {V : Type} [Inhabited V] {A : Alg V}

omit [Inhabited V] in
/-- Reshape to given positive extents. -/
theorem reshape_lit {x : Tensor V} {s : List ℕ} (h : ∀ d ∈ s, 0 < d) :
    reshape x false (s.map fun (d : ℕ) => (d : ℤ)) = x.retag s := by
  have h1 : ∀ (k : ℕ) (s : List ℕ), (∀ d ∈ s, 0 < d) →
      reqDims x.shape false k (s.map fun (d : ℕ) => (d : ℤ)) = some (s.map some) := by
    intro k s
    induction s generalizing k with
    | nil => intro _; rfl
    | cons d s ih =>
      intro h
      have hd := h d (by simp)
      rw [List.map_cons]
      unfold reqDims
      rw [if_neg (by omega), if_neg (by omega), if_pos (by omega), ih _ fun e he => h e (by simp [he])]
      simp
  unfold reshape
  rw [h1 0 s h, Option.bind_some]
  unfold fillDims
  rw [if_pos (by rw [List.count_eq_zero]; simp), Option.bind_some]
  congr 1
  rw [List.map_map]
  conv_rhs => rw [← List.map_id s]
  exact List.map_congr_left fun d _ => rfl

theorem get_eq_of {a b : Tensor V} {i j : List ℕ} (hd : a.data = b.data)
    (h : rowMajor a.shape i = rowMajor b.shape j) : a.get i = b.get j := by
  unfold Tensor.get
  rw [hd, h]

/-- Reverse every coordinate. -/
def flip (ks k : List ℕ) : List ℕ := List.zipWith (fun d i => d - 1 - i) ks k

theorem flip_inBounds {ks k : List ℕ} (h : InBounds ks k) : InBounds ks (flip ks k) := by
  induction ks generalizing k with
  | nil => simp at h; subst h; exact inBounds_nil
  | cons d ks ih =>
    cases k with
    | nil => simp at h
    | cons a k =>
      rw [inBounds_cons] at h
      unfold flip
      rw [List.zipWith_cons_cons, inBounds_cons]
      exact ⟨by omega, ih h.2⟩

theorem flip_flip {ks k : List ℕ} (h : InBounds ks k) : flip ks (flip ks k) = k := by
  induction ks generalizing k with
  | nil => simp at h; subst h; rfl
  | cons d ks ih =>
    cases k with
    | nil => simp at h
    | cons a k =>
      rw [inBounds_cons] at h
      have := ih h.2
      unfold flip at this ⊢
      rw [List.zipWith_cons_cons, List.zipWith_cons_cons, this]
      congr 1
      omega

theorem sliceAxis_flip {d : ℕ} (h1 : d < 2 ^ 63) (h0 : 0 < d) :
    sliceAxis d i64max i64min (-1) = some ((d : ℤ) - 1, -1, d) := by
  unfold sliceAxis i64max i64min
  rw [if_neg (by decide)]
  simp only
  rw [if_neg (by decide), if_neg (by decide), if_pos (by decide)]
  congr 1
  have h2 : min (max ((2 : ℤ) ^ 63 - 1) 0) ((d : ℤ) - 1) = d - 1 := by omega
  have h3 : min (max (-(2 : ℤ) ^ 63 + d) (-1)) ((d : ℤ) - 1) = -1 := by omega
  rw [h2, h3]
  simp

theorem slice_flip {w : Tensor V} {a b c : ℕ} {ks : List ℕ} (hw : w.shape = a :: b :: c :: ks)
    (h0 : ∀ d ∈ ks, 0 < d) (h1 : ∀ d ∈ ks, d < 2 ^ 63) :
    ∃ y, slice w (List.replicate ks.length i64max) (List.replicate ks.length i64min)
      (some ((List.range ks.length).map fun i => ((3 + i : ℕ) : ℤ))) (some (List.replicate ks.length (-1))) = some y ∧
      y.shape = a :: b :: c :: ks ∧ ∀ i j l k, InBounds (a :: b :: c :: ks) (i :: j :: l :: k) →
        y.get (i :: j :: l :: k) = w.get (i :: j :: l :: flip ks k) := by
  let q : List (ℤ × ℤ × ℕ) := (0, 1, a) :: (0, 1, b) :: (0, 1, c) :: ks.map fun (d : ℕ) => ((d : ℤ) - 1, (-1 : ℤ), d)
  have hq : (q.map fun a => a.2.2) = a :: b :: c :: ks := by
    simp only [q, List.map_cons, List.map_map]
    congr 3
    conv_rhs => rw [← List.map_id ks]
    exact List.map_congr_left fun d _ => rfl
  have hax : ((List.range ks.length).map fun i => ((3 + i : ℕ) : ℤ)).mapM (normAxis w.shape.length) =
      some ((List.range ks.length).map (3 + ·)) := by
    rw [mapM_forall₂, List.forall₂_map_left_iff, List.forall₂_map_right_iff]
    refine List.forall₂_same.2 fun i hi => ?_
    rw [List.mem_range] at hi
    unfold normAxis
    rw [if_pos (by rw [hw]; simp; omega)]
    exact congrArg some (Int.toNat_natCast _)
  have hs : sliceAxes w.shape ((List.range ks.length).map (3 + ·)) (List.replicate ks.length i64max)
      (List.replicate ks.length i64min) (List.replicate ks.length (-1)) = some q := by
    unfold sliceAxes
    rw [mapM_forall₂, hw]
    simp only [List.zipIdx_cons, q]
    refine .cons (if_neg (by simp)) (.cons (if_neg (by simp; omega)) (.cons (if_neg (by simp; omega)) ?_))
    rw [List.forall₂_map_right_iff, List.forall₂_iff_get]
    refine ⟨by simp, fun j h2 h3 => ?_⟩
    simp only [List.length_zipIdx] at h2
    simp only [List.get_eq_getElem, List.getElem_zipIdx]
    have hm : 0 + 1 + 1 + 1 + j ∈ (List.range ks.length).map (3 + ·) :=
      List.mem_map.2 ⟨j, List.mem_range.2 h2, by omega⟩
    rw [if_pos hm]
    have hlt := List.idxOf_lt_length_of_mem hm
    simp only [List.length_map, List.length_range] at hlt
    have rep : ∀ v : ℤ, (List.replicate ks.length v).getD (((List.range ks.length).map (3 + ·)).idxOf (0 + 1 + 1 + 1 + j)) 0 = v := by
      intro v
      rw [List.getD_eq_getElem _ _ (by simpa using hlt)]
      simp
    rw [rep, rep, rep]
    exact sliceAxis_flip (h1 _ (List.getElem_mem h2)) (h0 _ (List.getElem_mem h2))
  refine ⟨_, slice_some.2 ⟨_, q, hax, ⟨?_, by simp, by simp, by simp⟩, hs, rfl⟩, hq, ?_⟩
  · exact List.Nodup.map (fun a b h => by simpa using h) List.nodup_range
  · intro i j l k hi
    rw [get_build _ (by rw [hq]; exact hi)]
    congr 1
    simp only [q, List.zipWith_cons_cons, List.zipWith_map_left]
    simp only [inBounds_cons] at hi
    have : ∀ (ks k : List ℕ), InBounds ks k →
        List.zipWith (fun (d : ℕ) (i : ℕ) => ((d : ℤ) - 1 + -1 * (i : ℤ)).toNat) ks k = flip ks k := by
      intro ks
      induction ks with
      | nil => intro k _; simp [flip]
      | cons d ks ih =>
        intro k hk
        cases k with
        | nil => simp at hk
        | cons e k =>
          rw [inBounds_cons] at hk
          unfold flip
          rw [List.zipWith_cons_cons, List.zipWith_cons_cons, ih k hk.2]
          unfold flip
          congr 1
          omega
    rw [this ks k hi.2.2.2]
    simp

theorem map_getD_range (ks : List ℕ) : ((List.range ks.length).map fun i => ks.getD i 0) = ks := by
  apply List.ext_getElem (by simp)
  intro i h1 h2
  simp only [List.getElem_map, List.getElem_range]
  exact List.getD_eq_getElem _ _ h2

theorem perm_swap (n : ℕ) : IsPerm (n + 3) (0 :: 2 :: 1 :: (List.range n).map (3 + ·)) := by
  refine ⟨by simp, ?_, ?_⟩
  · have h1 : ((List.range n).map (3 + ·)).Nodup := List.Nodup.map (fun a b h => by simpa using h) List.nodup_range
    have h2 : ∀ a < 3, a ∉ (List.range n).map (3 + ·) := by
      intro a ha h
      obtain ⟨b, _, hb⟩ := List.mem_map.1 h
      omega
    simp only [List.nodup_cons, List.mem_cons, not_or]
    exact ⟨⟨by decide, by decide, h2 0 (by decide)⟩, ⟨by decide, h2 2 (by decide)⟩, h2 1 (by decide), h1⟩
  · intro a ha
    simp only [List.mem_cons, List.mem_map, List.mem_range] at ha
    omega

theorem transpose_swap {w : Tensor V} {a b c : ℕ} {ks : List ℕ} (hw : w.shape = a :: b :: c :: ks) :
    ∃ y, transpose w (0 :: 2 :: 1 :: (List.range ks.length).map (3 + ·)) = some y ∧
      y.shape = a :: c :: b :: ks ∧ ∀ i j l k, InBounds (a :: c :: b :: ks) (i :: j :: l :: k) →
        y.get (i :: j :: l :: k) = w.get (i :: l :: j :: k) := by
  have hl : w.shape.length = ks.length + 3 := by rw [hw]; simp
  have hp : IsPerm w.shape.length (0 :: 2 :: 1 :: (List.range ks.length).map (3 + ·)) := by
    rw [hl]; exact perm_swap _
  have hs : tShape (0 :: 2 :: 1 :: (List.range ks.length).map (3 + ·)) w.shape = a :: c :: b :: ks := by
    unfold tShape
    rw [hw]
    simp only [List.map_cons, List.map_map]
    congr 3
    conv_rhs => rw [← map_getD_range ks]
    refine List.map_congr_left fun i _ => ?_
    simp only [Function.comp]
    rw [Nat.add_comm]
    simp
  refine ⟨_, transpose_some.2 ⟨hp, rfl⟩, hs, ?_⟩
  intro i j l k hi
  rw [get_build _ (by rw [hs]; exact hi)]
  congr 1
  have hk : k.length = ks.length := by
    have := hi.length
    simpa using this
  rw [hl]
  refine getD_ext (by simp [hk]) fun m hm => ?_
  simp only [tIdx_length] at hm
  rw [tIdx_getD hm]
  match m, hm with
  | 0, _ => simp
  | 1, _ => simp
  | 2, _ => simp
  | m + 3, hm =>
    have h1 := hp.idxOf_getD (k := m + 3) (by rw [hl]; exact hm)
    have h2 : (0 :: 2 :: 1 :: (List.range ks.length).map (3 + ·)).getD (m + 3) 0 = m + 3 := by
      simp only [List.getD_cons_succ]
      rw [List.getD_eq_getElem _ _ (by simpa using (by omega : m < ks.length))]
      simp; omega
    rw [h2] at h1
    rw [h1]
    simp

/-- What the convolution weights are. -/
theorem convWeights_spec {w : Tensor V} {group cin mg : ℕ} {ks : List ℕ} (hw : w.shape = cin :: mg :: ks)
    (hg : 0 < group) (hd : group ∣ cin) (h0 : ∀ d ∈ w.shape, 0 < d) (h1 : ∀ d ∈ ks, d < 2 ^ 63) :
    ∃ y, convWeights group w = some y ∧ y.shape = (group * mg) :: (cin / group) :: ks ∧
      ∀ m c k, m < group * mg → c < cin / group → InBounds ks k →
        y.get (m :: c :: k) = w.get ((m / mg * (cin / group) + c) :: m % mg :: flip ks k) := by
  rw [hw] at h0
  have hcin : 0 < cin := h0 cin (by simp)
  have hmg : 0 < mg := h0 mg (by simp)
  have hks : ∀ d ∈ ks, 0 < d := fun d hd => h0 d (by simp [hd])
  obtain ⟨cg, rfl⟩ := hd
  have hcg : 0 < cg := Nat.pos_of_mul_pos_left hcin |> fun _ => by
    rcases Nat.eq_zero_or_pos cg with h | h
    · subst h; simp at hcin
    · exact h
  have hdiv : group * cg / group = cg := Nat.mul_div_cancel_left _ hg
  rw [hdiv]
  obtain ⟨w1, e1⟩ : ∃ w1, w.retag (group :: cg :: mg :: ks) = some w1 := by
    unfold Tensor.retag
    rw [dif_pos (by rw [hw]; simp only [List.prod_cons]; ring)]
    exact ⟨_, rfl⟩
  obtain ⟨w2, e2, s2, g2⟩ := slice_flip (w := w1) (retag_shape e1) hks h1
  obtain ⟨w3, e3, s3, g3⟩ := transpose_swap s2
  obtain ⟨w4, e4⟩ : ∃ w4, w3.retag (group * mg :: cg :: ks) = some w4 := by
    unfold Tensor.retag
    rw [dif_pos (by rw [s3]; simp only [List.prod_cons]; ring)]
    exact ⟨_, rfl⟩
  refine ⟨w4, ?_, retag_shape e4, ?_⟩
  · unfold convWeights
    rw [hw]
    simp only [List.getD_cons_zero, List.getD_cons_succ, List.drop_succ_cons, List.drop_zero, hdiv]
    rw [reshape_lit, e1, Option.bind_some, e2, Option.bind_some, e3, Option.bind_some, reshape_lit, e4]
    · intro d hd
      simp only [List.mem_cons] at hd
      rcases hd with rfl | rfl | hd
      · exact Nat.mul_pos hg hmg
      · exact hcg
      · exact hks d hd
    · intro d hd
      simp only [List.mem_cons] at hd
      rcases hd with rfl | rfl | rfl | hd
      · exact hg
      · exact hcg
      · exact hmg
      · exact hks d hd
  · intro m c k hm hc hk
    have hm1 : m / mg < group := (Nat.div_lt_iff_lt_mul hmg).2 hm
    have hm2 : m % mg < mg := Nat.mod_lt _ hmg
    have hf := flip_inBounds hk
    have a1 : w4.get (m :: c :: k) = w3.get (m / mg :: m % mg :: c :: k) := by
      refine get_eq_of (retag_data e4) ?_
      rw [retag_shape e4, s3]
      simp only [rowMajor, List.prod_cons]
      conv_lhs => rw [← Nat.div_add_mod m mg]
      ring
    rw [a1, g3 _ _ _ _ (by simp only [inBounds_cons]; exact ⟨hm1, hm2, hc, hk⟩),
      g2 _ _ _ _ (by simp only [inBounds_cons]; exact ⟨hm1, hc, hm2, hk⟩)]
    refine get_eq_of (retag_data e1) ?_
    rw [retag_shape e1, hw]
    simp only [rowMajor, List.prod_cons]
    ring

end Verif.ConvTranspose
