import Verif.Lower.PoolingLemmas
import Mathlib.Data.Rat.Defs
import Mathlib.Algebra.Order.Ring.Rat

/-!
C69: Conv.  C70: output sizes and automatic padding.  C71: MaxPool and AveragePool.
-/

namespace Verif.Props

open Verif.Lower

variable {R : Type*}

/-! ### C69 -/

/-- Element of a tensor `[N, C] ++ spatial`, zero outside of the spatial part. -/
def zeroPadded [Zero R] (X : Mem R) (n c : ℤ) (pos : Idx) : R :=
  if InShape pos (X.shape.drop 2) then X.data ([n, c] ++ pos) else 0

/-- For every number of spatial dimensions, group, stride, dilation and padding (negative
ones included), output channel `g * COg + c` of group `g` is the bias plus the sum over the
channels of the group and over the whole kernel of the zero-padded image times the filter.  No access is
out of bounds. -/
theorem C69_conv [NonUnitalNonAssocSemiring R] {X W : Mem R} (B : Option (Mem R)) {N G COg CIg : ℤ}
    {Is Ks ps ss ds od : List ℤ} (hG : 0 < G) (hci : 0 ≤ CIg) (hX : X.shape = [N, G * CIg] ++ Is)
    (hW : W.shape = [G * COg, CIg] ++ Ks) (hB : ∀ b, B = some b → b.shape = [G * COg])
    (h1 : Ks.length = Is.length) (h4 : ds.length = Is.length)
    (hd : ∀ d ∈ ds, 0 < d) (hod : od.length = Is.length) (junk : Idx → R) :
    ∃ out, conv X W B G ps ss ds od junk = some out ∧ out.shape = [N, G * COg] ++ od ∧
      ∀ n g c o, 0 ≤ n ∧ n < N → 0 ≤ g ∧ g < G → 0 ≤ c ∧ c < COg → InShape o od →
        out.data ([n, g * COg + c] ++ o) =
          ((idxs (CIg :: Ks)).map fun r =>
            zeroPadded X n (g * CIg + r.getD 0 0) (srcPos ss ds ps o r.tail) * W.data ([g * COg + c] ++ r)).sum +
          (match B with | none => 0 | some b => b.data [g * COg + c]) := by
  obtain ⟨out, e, hs, h⟩ := conv_spec B hG hci hX hW hB (ps := ps) (ss := ss) h1 h4 hd hod junk
  refine ⟨out, e, hs, fun n g c o hn hg hc ho => ?_⟩
  rw [h n g c o hn hg hc ho]
  unfold convValue zeroPadded
  refine congrArg₂ (· + ·) ?_ (by cases B <;> rfl)
  congr 1
  rw [hW]
  refine List.map_congr_left fun r hr => ?_
  have hr : InShape r (CIg :: Ks) := mem_idxs.1 hr
  have : r.tail.length = Is.length := by rw [List.length_tail, hr.length, List.length_cons, h1]; rfl
  rw [accPos_src (by rw [ho.length, hod]) this]

/-- Every output channel belongs to a group. -/
theorem C69_channels {G COg co : ℤ} (h : 0 ≤ co ∧ co < G * COg) (hc : 0 ≤ COg) :
    ∃ g c, (0 ≤ g ∧ g < G) ∧ (0 ≤ c ∧ c < COg) ∧ co = g * COg + c := by
  have hp : 0 < COg := by
    rcases hc.lt_or_eq with h' | h'
    · exact h'
    · rw [← h'] at h; omega
  refine ⟨co / COg, co % COg, ⟨Int.ediv_nonneg h.1 hc, Int.ediv_lt_of_lt_mul hp h.2⟩,
    ⟨Int.emod_nonneg _ (by omega), Int.emod_lt_of_pos _ hp⟩, ?_⟩
  rw [mul_comm]; exact (Int.mul_ediv_add_emod co COg).symm

/-- Two groups, stride 2, dilation 2, padding 1 and 2, a bias. -/
example : (conv (⟨[1, 2, 5], fun i => 10 * i.getD 1 0 + i.getD 2 0⟩ : Mem ℤ) ⟨[2, 1, 2], fun i => i.getD 0 0 + i.getD 2 0 + 1⟩
    (some ⟨[2], fun _ => 100⟩) 2 [1, 2] [2] [2] [3] (fun _ => 7)).map (fun o => (o.shape, (idxs o.shape).map o.data)) =
    some ([1, 2, 3], [102, 107, 103, 133, 161, 126]) := by decide +kernel

example : ∃ (X W : Mem ℤ), (0 : ℤ) < 2 ∧ X.shape = [1, 2 * 1] ++ [5] ∧ W.shape = [2 * 1, 1] ++ [2] ∧
    ([2] : List ℤ).length = ([5] : List ℤ).length ∧ ∀ d ∈ ([2] : List ℤ), 0 < d :=
  ⟨⟨[1, 2, 5], fun _ => 0⟩, ⟨[2, 1, 2], fun _ => 0⟩, by norm_num, rfl, rfl, rfl, by simp⟩

/-! ### C70 -/

/-- Explicit padding: position `o` belongs to the output exactly when its window fits in
the padded input. -/
theorem C70_explicit {I K s d pb pe : ℤ} (hs : 0 < s) (o : ℤ) :
    o < (convShapeDim .notset false I K s d pb pe).1 ↔ o * s + ((K - 1) * d + 1) ≤ I + pb + pe := by
  unfold convShapeDim
  simp only [Bool.false_eq_true, if_false]
  have h := Int.le_ediv_iff_mul_le hs (a := o) (b := I + (pb + pe) - ((K - 1) * d + 1))
  constructor
  · intro hlt
    have := h.1 (by omega)
    omega
  · intro hle
    have := h.2 (by omega)
    omega

/-- Explicit padding with `ceil_mode`: position `o` belongs to the output exactly when the
window of the position before it ends before the end of the padded input. -/
theorem C70_ceil {I K s d pb pe : ℤ} (hs : 0 < s) (o : ℤ) :
    o < (convShapeDim .notset true I K s d pb pe).1 ↔ (o - 1) * s + ((K - 1) * d + 1) < I + pb + pe := by
  unfold convShapeDim
  simp only [if_true]
  have h := lt_cdiv hs (a := I + (pb + pe) - ((K - 1) * d + 1)) (k := o - 1)
  constructor
  · intro hlt
    have := h.1 (by omega)
    omega
  · intro hle
    have := h.2 (by omega)
    omega

/-- The output is not empty exactly when the dilated kernel fits in the padded input. -/
theorem C70_nonempty {I K s d pb pe : ℤ} (hs : 0 < s) :
    0 < (convShapeDim .notset false I K s d pb pe).1 ↔ (K - 1) * d + 1 ≤ I + pb + pe := by
  rw [C70_explicit hs]; simp

/-- A kernel that does not fit gives a negative dimension: the shape inference does not
reject it. -/
theorem C70_negative_false : ¬ ∀ I K s d pb pe : ℤ, 0 ≤ I → 0 < K → 0 < s → 0 < d → 0 ≤ pb → 0 ≤ pe →
    0 ≤ (convShapeDim .notset false I K s d pb pe).1 := by
  intro h
  exact absurd (h 2 5 1 1 0 0 (by norm_num) (by norm_num) (by norm_num) (by norm_num) le_rfl le_rfl) (by decide +kernel)

/-- SAME padding (`lower` selects SAME_LOWER): the output has `ceil(I / s)` positions, the total padding is the smallest one
for which the last window fits, both sides differ by at most one, and the larger one is the
end for SAME_UPPER and the beginning for SAME_LOWER. -/
theorem C70_same (lower : Bool) {I K s d : ℤ} (hs : 0 < s) {c : Bool} {pb pe : ℤ} :
    ∃ O b e, convShapeDim (if lower then .sameLower else .sameUpper) c I K s d pb pe = (O, b, e) ∧
      (∀ k, O ≤ k ↔ I ≤ k * s) ∧ b + e = max ((O - 1) * s + ((K - 1) * d + 1) - I) 0 ∧
      0 ≤ b ∧ 0 ≤ e ∧ (if lower then b = e ∨ b = e + 1 else e = b ∨ e = b + 1) := by
  cases lower with
  | false =>
    refine ⟨_, _, _, rfl, fun k => cdiv_le hs, ?_⟩
    simp only [Bool.false_eq_true, if_false]
    generalize (cdiv I s - 1) * s + ((K - 1) * d + 1) - I = t
    generalize ht : max t 0 = u
    have : 0 ≤ u := by omega
    split <;> omega
  | true =>
    refine ⟨_, _, _, rfl, fun k => cdiv_le hs, ?_⟩
    simp only [if_true]
    generalize (cdiv I s - 1) * s + ((K - 1) * d + 1) - I = t
    generalize ht : max t 0 = u
    have : 0 ≤ u := by omega
    split <;> omega

/-- The canonicalization that replaces SAME padding by explicit padding computes the same
padding as the shape inference, and with this padding the explicit formula gives the same
output size. -/
theorem C70_same_explicit (lower : Bool) {I K s d : ℤ} (hI : 0 ≤ I) (hK : 0 < K) (hs : 0 < s) (hd : 0 < d)
    (attr : Option (ℤ × ℤ)) (pb pe : ℤ) (c : Bool) :
    ∃ b e, convPadParam (if lower then .sameLower else .sameUpper) I K s d attr = some (b, e) ∧
      convShapeDim (if lower then .sameLower else .sameUpper) c I K s d pb pe =
        convShapeDim .notset false I K s d b e := by
  have hk : 1 ≤ (K - 1) * d + 1 := by
    have : 0 ≤ (K - 1) * d := mul_nonneg (by omega) (by omega)
    omega
  have hO := fun k => cdiv_le hs (a := I) (k := k)
  have h1 := (hO (cdiv I s)).1 le_rfl
  have h2 : ¬ I ≤ (cdiv I s - 1) * s := fun h => by have := (hO _).2 h; omega
  have h3 : (cdiv I s - 1) * s = cdiv I s * s - s := by ring
  have key : ∀ P, P = max ((cdiv I s - 1) * s + ((K - 1) * d + 1) - I) 0 →
      (I + P - ((K - 1) * d + 1)) / s = cdiv I s - 1 := by
    intro P hP
    rw [Int.ediv_eq_iff_of_pos hs]
    constructor
    · omega
    · omega
  cases lower with
  | false =>
    simp only [Bool.false_eq_true, if_false, convPadParam, not_lt.2 hI]
    refine ⟨_, _, rfl, ?_⟩
    unfold convShapeDim
    simp only [Bool.false_eq_true, if_false]
    have hif : ∀ t : ℤ, (if t < 0 then 0 else t) = max t 0 := fun t => by split <;> omega
    rw [hif]
    generalize hu : max ((cdiv I s - 1) * s + ((K - 1) * d + 1) - I) 0 = u at *
    have he : (if u % 2 ≠ 0 then u / 2 + 1 else u / 2) = u / 2 + (if u % 2 ≠ 0 then 1 else 0) := by split <;> omega
    rw [he]
    refine Prod.ext ?_ (Prod.ext rfl rfl)
    simp only
    rw [key _ (show u / 2 + (u / 2 + if u % 2 ≠ 0 then 1 else 0) = u by split <;> omega)]
    omega
  | true =>
    simp only [if_true, convPadParam, not_lt.2 hI, if_false]
    refine ⟨_, _, rfl, ?_⟩
    unfold convShapeDim
    simp only [Bool.false_eq_true, if_false]
    have hif : ∀ t : ℤ, (if t < 0 then 0 else t) = max t 0 := fun t => by split <;> omega
    rw [hif]
    generalize hu : max ((cdiv I s - 1) * s + ((K - 1) * d + 1) - I) 0 = u at *
    have he : (if u % 2 ≠ 0 then u / 2 + 1 else u / 2) = u / 2 + (if u % 2 ≠ 0 then 1 else 0) := by split <;> omega
    rw [he]
    refine Prod.ext ?_ (Prod.ext rfl rfl)
    simp only
    rw [key _ (show (u / 2 + if u % 2 ≠ 0 then 1 else 0) + u / 2 = u by split <;> omega)]
    omega

example : convShapeDim .sameUpper false 5 4 2 1 0 0 = (3, 1, 2) ∧ convShapeDim .notset false 5 4 2 1 1 2 = (3, 1, 2) ∧
    convPadParam .sameLower 5 4 2 1 none = some (2, 1) ∧ convShapeDim .notset true 5 2 2 1 0 0 = (3, 0, 0) := by
  decide +kernel

/-! ### C71 -/

/-- Positions of the input covered by the window of output position `o`. -/
def windowOf (Is Ks ps ss ds : List ℤ) (o : Idx) : List Idx :=
  ((idxs Ks).map (srcPos ss ds ps o)).filter fun x => decide (InShape x Is)

/-- The loops over the windows are right: without dilation always; with dilation when every
dimension is dilated, every start is aligned with the dilation, and either the mode is floor
and the dilation 2, or the mode is ceil and no window passes the end of the input. -/
def LoopsRight (ceilMode : Bool) (Is Ks ps ss ds od : List ℤ) : Prop :=
  (∀ i < Is.length, ds.getD i 0 = 1) ∨
  (Is ≠ [] ∧ ∀ i < Is.length, 2 ≤ ds.getD i 0 ∧ 0 ≤ ss.getD i 0 ∧ (ps.getD i 0 = 0 ∨ ds.getD i 0 ∣ ss.getD i 0) ∧
    (ceilMode = false → ds.getD i 0 = 2) ∧
    (ceilMode = true → ∀ o, 0 ≤ o → o < od.getD i 0 →
      o * ss.getD i 0 + (Ks.getD i 0 - 1) * ds.getD i 0 + 1 - ps.getD i 0 ≤ Is.getD i 0))

theorem poolRight {c : Bool} {Is Ks ps ss ds od : List ℤ} (hod : od.length = Is.length)
    (h : LoopsRight c Is Ks ps ss ds od) :
    ∃ isD, (isD = (winDims Is Ks ps ss ds).any fun w => decide (w.dil > 1)) ∧
      (∀ w ∈ winDims Is Ks ps ss ds, 0 < w.dil) ∧ (isD = false → ∀ w ∈ winDims Is Ks ps ss ds, w.dil = 1) ∧
      ∀ o, InShape o od → ∀ p ∈ (winDims Is Ks ps ss ds).zip o, dimVisited c isD p.1 p.2 = dimWindow p.1 p.2 := by
  rcases h with h | ⟨hne, h⟩
  · have h1 : ∀ w ∈ winDims Is Ks ps ss ds, w.dil = 1 := by
      intro w hw
      obtain ⟨i, hi, rfl⟩ := mem_winDims hw
      exact h i hi
    refine ⟨false, ?_, fun w hw => by rw [h1 w hw]; norm_num, fun _ => h1, ?_⟩
    · symm
      rw [List.any_eq_false]
      intro w hw
      rw [h1 w hw]; decide
    · intro o ho p hp
      exact dimVisited_nondil c _ _ (h1 _ (List.of_mem_zip hp).1)
  · refine ⟨true, ?_, ?_, by simp, ?_⟩
    · symm
      rw [List.any_eq_true]
      have hl : 0 < Is.length := List.length_pos_iff.2 hne
      refine ⟨⟨Is.getD 0 0, Ks.getD 0 0, ps.getD 0 0, ss.getD 0 0, ds.getD 0 0⟩, ?_, ?_⟩
      · exact List.mem_map.2 ⟨0, List.mem_range.2 hl, rfl⟩
      · have := (h 0 hl).1
        simp only [decide_eq_true_eq]
        omega
    · intro w hw
      obtain ⟨i, hi, rfl⟩ := mem_winDims hw
      have := (h i hi).1
      simp only
      omega
    · intro o ho p hp
      obtain ⟨i, hi, h1, h2⟩ := mem_winDims_zip (by rw [ho.length, hod]) hp
      obtain ⟨g1, g2, g3, g4, g5⟩ := h i hi
      have hb := inShape_getD ho (i := i) (by omega)
      rw [h1, h2]
      refine dimVisited_dil c _ _ g1 ?_ g4 fun hc => g5 hc _ hb.1 hb.2
      rcases g3 with g3 | g3
      · exact Or.inl ⟨le_of_eq g3, mul_nonneg hb.1 g2, g3⟩
      · exact Or.inr (Dvd.dvd.mul_left g3 _)

/-- MaxPool: where the loops are right, every element of the result is an upper bound of its window, and one of
the elements of the window if the window is not empty (`bot` is the start value, below
everything). -/
theorem C71_maxpool_partial [LinearOrder R] (bot : R) (hbot : ∀ x, bot ≤ x) (c : Bool) {X : Mem R} {N C : ℤ}
    {Is Ks ps ss ds od : List ℤ} (hX : X.shape = [N, C] ++ Is) (h1 : Ks.length = Is.length)
    (hod : od.length = Is.length) (hr : LoopsRight c Is Ks ps ss ds od) (junk : Idx → R) :
    ∃ out, pool max bot (fun r _ => r) c X Ks ps ss ds od junk = some out ∧ out.shape = [N, C] ++ od ∧
      ∀ n ch o, 0 ≤ n ∧ n < N → 0 ≤ ch ∧ ch < C → InShape o od →
        (∀ x ∈ windowOf Is Ks ps ss ds o, X.data ([n, ch] ++ x) ≤ out.data ([n, ch] ++ o)) ∧
        (windowOf Is Ks ps ss ds o ≠ [] →
          ∃ x ∈ windowOf Is Ks ps ss ds o, out.data ([n, ch] ++ o) = X.data ([n, ch] ++ x)) := by
  obtain ⟨isD, hD, _, _, hv⟩ := poolRight hod hr
  obtain ⟨out, e, hs, h⟩ := pool_spec max bot (fun r _ => r) c hX h1 hod isD hD hv junk
  refine ⟨out, e, hs, fun n ch o hn hc ho => ?_⟩
  rw [h n ch o hn hc ho, window_src h1 (by rw [ho.length, hod])]
  change (∀ x ∈ windowOf Is Ks ps ss ds o, _) ∧ _
  obtain ⟨g1, _, g3⟩ := foldl_max_spec ((windowOf Is Ks ps ss ds o).map fun x => X.data ([n, ch] ++ x)) bot
  refine ⟨fun x hx => g1 _ (List.mem_map_of_mem hx), fun hne => ?_⟩
  rcases g3 with g3 | g3
  · obtain ⟨x, hx⟩ := List.exists_mem_of_ne_nil _ hne
    refine ⟨x, hx, ?_⟩
    have := g1 _ (List.mem_map_of_mem (f := fun x => X.data ([n, ch] ++ x)) hx)
    exact le_antisymm (le_trans (le_of_eq g3) (hbot _)) this
  · obtain ⟨x, hx, hxe⟩ := List.mem_map.1 g3
    exact ⟨x, hx, hxe.symm⟩

/-- AveragePool without `count_include_pad`: where the loops are right and the window is not empty, every element is the sum of its
window divided by the number of elements of the window. -/
theorem C71_averagepool_partial [Field R] (c : Bool) {X : Mem R} {N C : ℤ}
    {Is Ks ps ss ds od : List ℤ} (hX : X.shape = [N, C] ++ Is) (h1 : Ks.length = Is.length)
    (hod : od.length = Is.length) (hr : LoopsRight c Is Ks ps ss ds od) (junk : Idx → R) :
    ∃ out, pool (· + ·) 0 (avgPost false Ks) c X Ks ps ss ds od junk = some out ∧ out.shape = [N, C] ++ od ∧
      ∀ n ch o, 0 ≤ n ∧ n < N → 0 ≤ ch ∧ ch < C → InShape o od → windowOf Is Ks ps ss ds o ≠ [] →
        out.data ([n, ch] ++ o) = ((windowOf Is Ks ps ss ds o).map fun x => X.data ([n, ch] ++ x)).sum /
          ((windowOf Is Ks ps ss ds o).length : R) := by
  obtain ⟨isD, hD, hd, hd1, hv⟩ := poolRight hod hr
  obtain ⟨out, e, hs, h⟩ := pool_spec (· + ·) 0 (avgPost false Ks) c hX h1 hod isD hD hv junk
  refine ⟨out, e, hs, fun n ch o hn hc ho hne => ?_⟩
  have hw : poolWindow (winDims Is Ks ps ss ds) o = windowOf Is Ks ps ss ds o := window_src h1 (by rw [ho.length, hod])
  rw [h n ch o hn hc ho]
  unfold avgPost
  rw [if_neg (by simp), prodSizes_window hd hd1 (hv o ho) (by rw [hw]; exact hne), hw, List.sum_eq_foldl, Int.cast_natCast]

/-- AveragePool with `count_include_pad`: the sum of the window divided by the size of the
kernel. -/
theorem C71_averagepool_pad_partial [Field R] (c : Bool) {X : Mem R} {N C : ℤ}
    {Is Ks ps ss ds od : List ℤ} (hX : X.shape = [N, C] ++ Is) (h1 : Ks.length = Is.length) (hK : ∀ k ∈ Ks, 0 ≤ k)
    (hod : od.length = Is.length) (hr : LoopsRight c Is Ks ps ss ds od) (junk : Idx → R) :
    ∃ out, pool (· + ·) 0 (avgPost true Ks) c X Ks ps ss ds od junk = some out ∧ out.shape = [N, C] ++ od ∧
      ∀ n ch o, 0 ≤ n ∧ n < N → 0 ≤ ch ∧ ch < C → InShape o od →
        out.data ([n, ch] ++ o) = ((windowOf Is Ks ps ss ds o).map fun x => X.data ([n, ch] ++ x)).sum /
          ((idxs Ks).length : R) := by
  obtain ⟨isD, hD, hd, hd1, hv⟩ := poolRight hod hr
  obtain ⟨out, e, hs, h⟩ := pool_spec (· + ·) 0 (avgPost true Ks) c hX h1 hod isD hD hv junk
  refine ⟨out, e, hs, fun n ch o hn hc ho => ?_⟩
  have hw : poolWindow (winDims Is Ks ps ss ds) o = windowOf Is Ks ps ss ds o := window_src h1 (by rw [ho.length, hod])
  rw [h n ch o hn hc ho]
  unfold avgPost
  have hn : Ks.foldl (· * ·) 1 = ((idxs Ks).length : ℤ) := by
    rw [length_idxs hK, foldl_numel, one_mul]
  rw [if_pos rfl, hw, List.sum_eq_foldl, hn, Int.cast_natCast]

/-- Whole windows inside the padded input: with floor mode every kernel position of every
output position is inside of the padded input, so that the size of the kernel is the number
of elements counted with `count_include_pad`. -/
theorem C71_pad_count {I K s d pb pe o k : ℤ} (hs : 0 < s) (hd : 0 < d) (ho : 0 ≤ o)
    (hO : o < (convShapeDim .notset false I K s d pb pe).1) (hk : 0 ≤ k ∧ k < K) :
    -pb ≤ o * s + k * d - pb ∧ o * s + k * d - pb < I + pe := by
  have h := (C70_explicit hs o).1 hO
  have h1 : k * d ≤ (K - 1) * d := mul_le_mul_of_nonneg_right (by omega) (by omega)
  have h2 := mul_nonneg ho hs.le
  have h3 := mul_nonneg hk.1 hd.le
  constructor <;> omega

/-- In ceil mode it is not: the last window can pass the end of the padded input, and these
positions are counted. -/
theorem C71_pad_count_ceil_false : ¬ ∀ I K s d pb pe o k : ℤ, 0 < I → 0 < s → 0 < d → 0 ≤ pb → 0 ≤ pe → 0 ≤ o →
    o < (convShapeDim .notset true I K s d pb pe).1 → 0 ≤ k ∧ k < K → o * s + k * d - pb < I + pe := by
  intro h
  exact absurd (h 4 3 2 1 0 0 1 2 (by norm_num) (by norm_num) (by norm_num) le_rfl le_rfl (by norm_num)
    (by decide +kernel) (by norm_num)) (by norm_num)

/-- A padded, strided example that meets the hypotheses. -/
example : LoopsRight true [4, 5] [2, 3] [1, 1, 0, 1] [2, 1] [1, 1] [3, 5] := Or.inl (by decide +kernel)

example : LoopsRight false [5] [2] [1, 1] [2] [2] [3] :=
  Or.inr ⟨by simp, fun i hi => by
    have : i = 0 := by simpa using hi
    subst this; simp⟩

example : (pool max (-1000) (fun r _ => r) true (⟨[1, 1, 4], fun i => (i.getD 2 0 - 2) * (i.getD 2 0 - 2)⟩ : Mem ℤ) [2] [1, 0] [2] [1] [3]
    (fun _ => 7)).map (fun o => (o.shape, (idxs o.shape).map o.data)) = some ([1, 1, 3], [4, 1, 1]) := by decide +kernel

example : (pool (· + ·) 0 (avgPost false [2]) false (⟨[1, 1, 4], fun i => i.getD 2 0⟩ : Mem ℚ) [2] [1, 0] [2] [1] [2]
    (fun _ => 7)).map (fun o => (o.shape, (idxs o.shape).map o.data)) = some ([1, 1, 2], [0, 3 / 2]) := by decide +kernel

/-- Floor mode with dilation 3: the last element of the kernel is dropped. -/
theorem C71_dilation3_false : ¬ ∀ (X : Mem ℤ) (out : Mem ℤ), X.shape = [1, 1, 4] →
    pool max (-1000) (fun r _ => r) false X [2] [0, 0] [1] [3] [1] (fun _ => 0) = some out →
    ∀ x ∈ windowOf [4] [2] [0, 0] [1] [3] [0], X.data ([0, 0] ++ x) ≤ out.data [0, 0, 0] := by
  intro h
  have hp : pool max (-1000) (fun r _ => r) false (⟨[1, 1, 4], fun i => i.getD 2 0⟩ : Mem ℤ) [2] [0, 0] [1] [3] [1]
      (fun _ => 0) = some ⟨[1, 1, 1], fun i => if i = [0, 0, 0] then 0 else 0⟩ := by rfl
  have := h _ _ rfl hp [3] (by decide +kernel)
  exact absurd this (by decide +kernel)

/-- Dilation 2 and padding 1 with stride 1: the second window reads position 1 in place of
0 and 2. -/
theorem C71_misaligned_false : ¬ ∀ (X : Mem ℤ) (out : Mem ℤ), X.shape = [1, 1, 4] →
    pool max (-1000) (fun r _ => r) false X [2] [1, 1] [1] [2] [4] (fun _ => 0) = some out →
    ∃ x ∈ windowOf [4] [2] [1, 1] [1] [2] [1], out.data [0, 0, 1] = X.data ([0, 0] ++ x) := by
  intro h
  obtain ⟨out, e, hd⟩ : ∃ out, pool max (-1000) (fun r _ => r) false (⟨[1, 1, 4], fun i => i.getD 2 0⟩ : Mem ℤ) [2] [1, 1]
      [1] [2] [4] (fun _ => 0) = some out ∧ out.data [0, 0, 1] = 1 := by
    refine ⟨_, rfl, ?_⟩
    decide +kernel
  obtain ⟨x, hx, he⟩ := h _ _ rfl e
  rw [hd] at he
  revert x
  decide +kernel

/-- Dilations 2 and 1: the window of the dimension that is not dilated gets one element
too many, out of bounds here. -/
theorem C71_mixed_false : ¬ ∀ (X : Mem ℤ), X.shape = [1, 1, 3, 2] →
    pool max (-1000) (fun r _ => r) false X [2, 2] [0, 0, 0, 0] [1, 1] [2, 1] [1, 1] (fun _ => 0) ≠ none := by
  intro h
  exact h ⟨[1, 1, 3, 2], fun _ => 0⟩ rfl rfl

/-- Ceil mode with dilation, the last window clipped by the end of the input: the loop reads out of
bounds. -/
theorem C71_ceil_bounds_false : ¬ ∀ (X : Mem ℤ), X.shape = [1, 1, 4] →
    pool max (-1000) (fun r _ => r) true X [3] [0, 1] [1] [2] [1] (fun _ => 0) ≠ none := by
  intro h
  exact h ⟨[1, 1, 4], fun _ => 0⟩ rfl rfl

/-- The sizes of the three examples above are those of the shape inference. -/
example : (convShapeDim .notset false 4 2 1 3 0 0).1 = 1 ∧ (convShapeDim .notset false 4 2 1 2 1 1).1 = 4 ∧
    (convShapeDim .notset false 3 2 1 2 0 0).1 = 1 ∧ (convShapeDim .notset false 2 2 1 1 0 0).1 = 1 ∧
    (convShapeDim .notset true 4 3 1 2 0 1).1 = 1 := by decide +kernel

end Verif.Props
