import Verif.Resize.Spec
import Verif.Resize.Model
import Verif.Base.Opt
import Mathlib.Tactic.NormNum
import Mathlib.Tactic.FieldSimp
import Mathlib.Tactic.Linarith
import Mathlib.Algebra.BigOperators.Ring.Finset

namespace Verif.Resize

/-- The kernel the C function stands for, in the mode the runtime uses. -/
def kernelOf : Kern → ℚ → ℚ
  | .nearest => nearestKernel
  | .linear => linearKernel
  | .cubic => cubicKernel

theorem range2 (x : ℚ) : neighborRange x 2 =
    if x = ⌊x⌋ then (⌊x⌋ - 1, ⌊x⌋) else (⌊x⌋, ⌊x⌋ + 1) := by
  have hf : ⌊x + ((1 : Int) : ℚ)⌋ = ⌊x⌋ + 1 := Int.floor_add_intCast x 1
  unfold neighborRange
  simp only [show (2 : Int) / 2 = 1 by rfl, show (2 : Int) - 1 = 1 by rfl, show (1 : Int) / 2 = 0 by rfl,
    show (1 : Int) % 2 = 1 by rfl, hf, one_ne_zero, if_false]
  have hr : x + ((1 : Int) : ℚ) - ((⌊x⌋ + 1 : Int) : ℚ) = x - ⌊x⌋ := by push_cast; ring
  rw [hr]
  by_cases h : x = ⌊x⌋
  · have h0 : x - ⌊x⌋ = 0 := by linarith
    rw [h0, if_pos h]
    norm_num
  · have h0 : x - ⌊x⌋ ≠ 0 := fun hc => h (by linarith)
    rw [if_neg h, if_neg h0]
    split <;> simp

theorem range4 (x : ℚ) : neighborRange x 4 =
    if x = ⌊x⌋ then (⌊x⌋ - 2, ⌊x⌋ + 1) else (⌊x⌋ - 1, ⌊x⌋ + 2) := by
  have hf : ⌊x + ((2 : Int) : ℚ)⌋ = ⌊x⌋ + 2 := Int.floor_add_intCast x 2
  unfold neighborRange
  simp only [show (4 : Int) / 2 = 2 by rfl, show (4 : Int) - 1 = 3 by rfl, show (3 : Int) / 2 = 1 by rfl,
    show (3 : Int) % 2 = 1 by rfl, hf, one_ne_zero, if_false, show (3 : Int) ≠ 0 by decide]
  have hr : x + ((2 : Int) : ℚ) - ((⌊x⌋ + 2 : Int) : ℚ) = x - ⌊x⌋ := by push_cast; ring
  rw [hr]
  by_cases h : x = ⌊x⌋
  · have h0 : x - ⌊x⌋ = 0 := by linarith
    rw [h0, if_pos h]
    norm_num
    constructor <;> ring
  · have h0 : x - ⌊x⌋ ≠ 0 := fun hc => h (by linarith)
    rw [if_neg h, if_neg h0]
    split <;> simp <;> constructor <;> ring

theorem clamp_lt {n : Nat} (hn : 0 < n) (k : Int) : clamp n k < n := by
  unfold clamp; omega

theorem point_eq {data : List ℚ} {limit : Nat} {g : Nat → ℚ} (hl : 0 < limit)
    (hg : ∀ i < limit, data[i]? = some (g i)) (i : Int) :
    point data limit false i = some (g (clamp limit i)) := by
  unfold point
  simp only [Bool.false_eq_true, if_false]
  split
  · rw [show clamp limit i = 0 by unfold clamp; omega]
    exact hg 0 hl
  · split
    · rw [if_neg (by omega), show clamp limit i = limit - 1 by unfold clamp; omega]
      exact hg _ (by omega)
    · rw [show clamp limit i = i.toNat by unfold clamp; omega]
      exact hg _ (by omega)

theorem mapM_point {data : List ℚ} {limit : Nat} {g : Nat → ℚ} (hl : 0 < limit)
    (hg : ∀ i < limit, data[i]? = some (g i)) (s : Int) (l : List Nat) :
    (l.mapM fun (j : Nat) => point data limit false (s + j)) =
      some (l.map fun (j : Nat) => g (clamp limit (s + j))) := by
  induction l with
  | nil => rfl
  | cons a l ih => rw [List.mapM_cons, point_eq hl hg, ih]; rfl

theorem getNeighbor2 {data : List ℚ} {limit : Nat} {g : Nat → ℚ} (hl : 0 < limit)
    (hg : ∀ i < limit, data[i]? = some (g i)) (x : ℚ) :
    getNeighbor x 2 limit data false = some (
      let s := if x = ⌊x⌋ then ⌊x⌋ - 1 else ⌊x⌋
      [g (clamp limit s), g (clamp limit (s + 1))]) := by
  unfold getNeighbor
  simp only [Nat.cast_ofNat, range2]
  by_cases h : x = ⌊x⌋
  · simp only [if_pos h]
    rw [if_pos (by omega), show (⌊x⌋ - (⌊x⌋ - 1) + 1).toNat = 2 by omega, mapM_point hl hg]
    simp [List.range_succ]
  · simp only [if_neg h]
    rw [if_pos (by omega), show (⌊x⌋ + 1 - ⌊x⌋ + 1).toNat = 2 by omega, mapM_point hl hg]
    simp [List.range_succ]

theorem getNeighbor4 {data : List ℚ} {limit : Nat} {g : Nat → ℚ} (hl : 0 < limit)
    (hg : ∀ i < limit, data[i]? = some (g i)) (x : ℚ) :
    getNeighbor x 4 limit data false = some (
      let s := if x = ⌊x⌋ then ⌊x⌋ - 2 else ⌊x⌋ - 1
      [g (clamp limit s), g (clamp limit (s + 1)), g (clamp limit (s + 2)), g (clamp limit (s + 3))]) := by
  unfold getNeighbor
  simp only [Nat.cast_ofNat, range4]
  by_cases h : x = ⌊x⌋
  · simp only [if_pos h]
    rw [if_pos (by omega), show (⌊x⌋ + 1 - (⌊x⌋ - 2) + 1).toNat = 4 by omega, mapM_point hl hg]
    simp [List.range_succ]
  · simp only [if_neg h]
    rw [if_pos (by omega), show (⌊x⌋ + 2 - (⌊x⌋ - 1) + 1).toNat = 4 by omega, mapM_point hl hg]
    simp [List.range_succ]

theorem sum_window (a : Int) (h : Int → ℚ) : ∑ k ∈ Finset.Icc (a - 2) (a + 2), h k =
    h (a - 2) + h (a - 1) + h a + h (a + 1) + h (a + 2) := by
  have : Finset.Icc (a - 2) (a + 2) = {a - 2, a - 1, a, a + 1, a + 2} := by
    ext k
    simp only [Finset.mem_Icc, Finset.mem_insert, Finset.mem_singleton]
    omega
  rw [this, Finset.sum_insert (by simp; omega), Finset.sum_insert (by simp; omega),
    Finset.sum_insert (by simp), Finset.sum_insert (by simp), Finset.sum_singleton]
  ring

/-- The window of a coordinate, by the distance to the samples. -/
theorem window_eq {w : ℚ → ℚ} (x : ℚ) (h : Int → ℚ) :
    ∑ k ∈ Finset.Icc (⌊x⌋ - 2) (⌊x⌋ + 2), w (x - k) * h k =
      w (x - ⌊x⌋ + 2) * h (⌊x⌋ - 2) + w (x - ⌊x⌋ + 1) * h (⌊x⌋ - 1) + w (x - ⌊x⌋) * h ⌊x⌋ +
        w (x - ⌊x⌋ - 1) * h (⌊x⌋ + 1) + w (x - ⌊x⌋ - 2) * h (⌊x⌋ + 2) := by
  rw [sum_window]
  push_cast
  rw [show x - (⌊x⌋ - 2 : ℚ) = x - ⌊x⌋ + 2 by ring, show x - (⌊x⌋ - 1 : ℚ) = x - ⌊x⌋ + 1 by ring,
    show x - (⌊x⌋ + 1 : ℚ) = x - ⌊x⌋ - 1 by ring, show x - (⌊x⌋ + 2 : ℚ) = x - ⌊x⌋ - 2 by ring]

theorem frac_bounds (x : ℚ) : 0 ≤ x - ⌊x⌋ ∧ x - ⌊x⌋ < 1 := by
  have h1 := Int.floor_le x
  have h2 := Int.lt_floor_add_one x
  constructor <;> linarith

theorem linear_vals {r : ℚ} (h0 : 0 ≤ r) (h1 : r < 1) :
    linearKernel (r + 2) = 0 ∧ linearKernel (r + 1) = 0 ∧ linearKernel r = 1 - r ∧ linearKernel (r - 1) = r ∧
      linearKernel (r - 2) = 0 := by
  unfold linearKernel
  rw [abs_of_nonneg (by linarith : 0 ≤ r + 2), abs_of_nonneg (by linarith : 0 ≤ r + 1), abs_of_nonneg h0,
    abs_of_neg (by linarith : r - 1 < 0), abs_of_neg (by linarith : r - 2 < 0)]
  refine ⟨max_eq_left (by linarith), max_eq_left (by linarith), max_eq_right (by linarith), ?_,
    max_eq_left (by linarith)⟩
  rw [max_eq_right (by linarith)]
  ring

theorem nearest_vals {r : ℚ} (h0 : 0 ≤ r) (h1 : r < 1) :
    nearestKernel (r + 2) = 0 ∧ nearestKernel (r + 1) = 0 ∧ nearestKernel r = (if r ≤ 1 / 2 then 1 else 0) ∧
      nearestKernel (r - 1) = (if r > 1 / 2 then 1 else 0) ∧ nearestKernel (r - 2) = 0 := by
  unfold nearestKernel
  refine ⟨if_neg ?_, if_neg ?_, ?_, ?_, if_neg ?_⟩
  · rintro ⟨_, h⟩; linarith
  · rintro ⟨_, h⟩; linarith
  · congr 1
    rw [eq_iff_iff]
    exact ⟨fun h => h.2, fun h => ⟨by linarith, h⟩⟩
  · congr 1
    rw [eq_iff_iff]
    exact ⟨fun h => by linarith [h.1], fun h => ⟨by linarith, by linarith⟩⟩
  · rintro ⟨h, _⟩; linarith

theorem cubic_vals {r : ℚ} (h0 : 0 ≤ r) (h1 : r < 1) :
    cubicKernel (r + 2) = 0 ∧
    cubicKernel (r + 1) = -3 / 4 * (r + 1) ^ 3 - 5 * (-3 / 4) * (r + 1) ^ 2 + 8 * (-3 / 4) * (r + 1) - 4 * (-3 / 4) ∧
    cubicKernel r = (-3 / 4 + 2) * r ^ 3 - (-3 / 4 + 3) * r ^ 2 + 1 ∧
    cubicKernel (r - 1) = (-3 / 4 + 2) * (1 - r) ^ 3 - (-3 / 4 + 3) * (1 - r) ^ 2 + 1 ∧
    cubicKernel (r - 2) =
      -3 / 4 * (2 - r) ^ 3 - 5 * (-3 / 4) * (2 - r) ^ 2 + 8 * (-3 / 4) * (2 - r) - 4 * (-3 / 4) := by
  unfold cubicKernel
  rw [abs_of_nonneg (by linarith : 0 ≤ r + 2), abs_of_nonneg (by linarith : 0 ≤ r + 1), abs_of_nonneg h0,
    abs_of_neg (by linarith : r - 1 < 0), abs_of_neg (by linarith : r - 2 < 0)]
  refine ⟨?_, ?_, if_pos h1.le, ?_, ?_⟩
  · rw [if_neg (by linarith), if_neg (by linarith)]
  · by_cases hr : r = 0
    · subst hr; norm_num
    · have : 0 < r := lt_of_le_of_ne h0 (Ne.symm hr)
      rw [if_neg (by linarith), if_pos (by linarith)]
  · rw [if_pos (by linarith)]
    ring
  · rw [if_neg (by linarith)]
    by_cases hr : r = 0
    · subst hr; norm_num
    · have : 0 < r := lt_of_le_of_ne h0 (Ne.symm hr)
      rw [if_pos (by linarith)]
      ring

theorem interp1d_eq (k : Kern) {data : List ℚ} {limit : Nat} {g : Nat → ℚ} (hl : 0 < limit)
    (hg : ∀ i < limit, data[i]? = some (g i)) {scale : ℚ} (hs : scale ≠ 0) (i : Nat) :
    interp1d k 0 0 false limit data scale i = some (
      ∑ j ∈ Finset.Icc (⌊halfPixel scale i⌋ - 2) (⌊halfPixel scale i⌋ + 2),
        kernelOf k (halfPixel scale i - j) * g (clamp limit j)) := by
  unfold interp1d xOri
  rw [if_neg hs]
  simp only [Option.bind_some]
  rw [show ((i : ℚ) + 1 / 2) / scale - 1 / 2 = halfPixel scale i from rfl]
  generalize halfPixel scale i = x
  obtain ⟨h0, h1⟩ := frac_bounds x
  have key : ∀ h : Int → ℚ, ∑ j ∈ Finset.Icc (⌊x⌋ - 2) (⌊x⌋ + 2), kernelOf k (x - j) * h j = _ :=
    fun h => window_eq x h
  rw [key fun j => g (clamp limit j)]
  have hiff : x = ⌊x⌋ ↔ x - ⌊x⌋ = 0 := by rw [sub_eq_zero]
  have n2 := getNeighbor2 hl hg x
  have n4 := getNeighbor4 hl hg x
  simp only [hiff] at n2 n4
  generalize x - (⌊x⌋ : ℚ) = r at *
  generalize ⌊x⌋ = f at *
  cases k with
  | linear =>
    obtain ⟨a, b, c, d, e⟩ := linear_vals h0 h1
    simp only [kernelOf, a, b, c, d, e, coeffs, taps, n2, Option.bind_some]
    by_cases hr : r = 0
    · subst hr
      simp [dot]
    · simp [hr, dot]
  | nearest =>
    obtain ⟨a, b, c, d, e⟩ := nearest_vals h0 h1
    simp only [kernelOf, a, b, c, d, e, coeffs, nearestCoeffs, taps, n2, Option.bind_some]
    by_cases hr : r = 0
    · subst hr
      norm_num [dot]
    · simp [hr, dot]
  | cubic =>
    obtain ⟨a, b, c, d, e⟩ := cubic_vals h0 h1
    simp only [kernelOf, a, b, c, d, e, coeffs, cubicCoeffs, taps, n4, Option.bind_some]
    by_cases hr : r = 0
    · subst hr
      norm_num [dot]
    · simp only [hr, if_false, dot, List.length_cons, List.length_nil, Nat.reduceAdd, lt_irrefl, Option.some.injEq]
      rw [show f - 1 + 1 = f by ring, show f - 1 + 2 = f + 1 by ring, show f - 1 + 3 = f + 2 by ring]
      ring

theorem mapM_shift {α : Type} (a : α) (l : List α) (n : Nat) (h : l.length = n) :
    ((List.range n).mapM fun i => (a :: l)[i + 1]?) = some l := by
  subst h
  obtain ⟨r, hr, h1, h2⟩ := optMapM_total (f := fun i => (a :: l)[i + 1]?) (l := List.range l.length) (by
    intro i hi
    exact ⟨l[i]'(by simpa using hi), by simp [List.getElem?_eq_getElem (by simpa using hi : i < l.length)]⟩)
  rw [hr]
  congr 1
  apply List.ext_getElem?
  intro i
  by_cases hi : i < l.length
  · obtain ⟨y, q1, q2⟩ := h2 i i (by rw [List.getElem?_range hi])
    rw [q1]
    simpa using q2.symm
  · rw [List.getElem?_eq_none (by simp at h1; omega), List.getElem?_eq_none (by omega)]

theorem interpNd_eq (k : Kern) : ∀ (ns : List Nat) (n : Nat) (data : List ℚ) (f : List Nat → ℚ)
    (scales : List ℚ) (idx : List Nat), scales.length = ns.length + 1 → idx.length = ns.length + 1 →
    (∀ d ∈ n :: ns, 0 < d) → (∀ s ∈ scales, s ≠ 0) →
    (∀ j, InBounds (n :: ns) j → data[rowMajor (n :: ns) j]? = some (f j)) →
    interpNd k 0 0 false (ns.length + 1) (n :: ns) data scales (idx.map (Nat.cast : Nat → ℚ)) =
      some (interp (kernelOf k) (n :: ns) f (List.zipWith halfPixel scales idx))
  | [], n, data, f, [s], [i], _, _, hd, hs, hdata => by
    have hs0 := hs s (by simp)
    have := interp1d_eq k (g := fun i => f [i]) (data := data) (hd n (by simp)) (by
      intro i hi
      have := hdata [i] (by simp [hi])
      simpa [rowMajor] using this) hs0 i
    simp only [List.length_nil, Nat.zero_add, interpNd, List.map_cons, List.map_nil, List.getElem?_cons_zero,
      Option.bind_some, this, List.zipWith_cons_cons, List.zipWith_nil_left, interp]
  | m :: ns, n, data, f, s :: scales, i :: idx, hsl, hil, hd, hs, hdata => by
    have hs0 := hs s (by simp)
    have hn : 0 < n := hd n (by simp)
    have ih : ∀ a < n, interpNd k 0 0 false (ns.length + 1) (m :: ns) (data.drop (a * (m :: ns).prod)) scales
        (idx.map (Nat.cast : Nat → ℚ)) =
        some (interp (kernelOf k) (m :: ns) (fun j => f (a :: j)) (List.zipWith halfPixel scales idx)) := by
      intro a ha
      refine interpNd_eq k ns m _ _ scales idx (by simpa using hsl) (by simpa using hil)
        (fun d hd' => hd d (by simp [List.mem_cons.1 hd'])) (fun t ht => hs t (by simp [ht])) ?_
      intro j hj
      rw [List.getElem?_drop]
      exact hdata (a :: j) (by simp [ha, hj])
    have htemp : ((List.range n).mapM fun a => interpNd k 0 0 false (ns.length + 1) (m :: ns)
        (data.drop (a * (m :: ns).prod)) scales (idx.map (Nat.cast : Nat → ℚ))) =
        some ((List.range n).map fun a =>
          interp (kernelOf k) (m :: ns) (fun j => f (a :: j)) (List.zipWith halfPixel scales idx)) := by
      have : ∀ l : List Nat, (∀ a ∈ l, a < n) → (l.mapM fun a => interpNd k 0 0 false (ns.length + 1) (m :: ns)
        (data.drop (a * (m :: ns).prod)) scales (idx.map (Nat.cast : Nat → ℚ))) =
        some (l.map fun a =>
          interp (kernelOf k) (m :: ns) (fun j => f (a :: j)) (List.zipWith halfPixel scales idx)) := by
        intro l
        induction l with
        | nil => intro _; rfl
        | cons a l ihl =>
          intro hl
          rw [List.mapM_cons, ih a (hl a (by simp)), ihl (fun b hb => hl b (by simp [hb]))]
          rfl
      exact this _ (by simp)
    have h1 := interp1d_eq k (g := fun a =>
        interp (kernelOf k) (m :: ns) (fun j => f (a :: j)) (List.zipWith halfPixel scales idx))
      (data := (List.range n).map fun a =>
        interp (kernelOf k) (m :: ns) (fun j => f (a :: j)) (List.zipWith halfPixel scales idx)) hn (by
      intro a ha
      rw [List.getElem?_map, List.getElem?_range ha]
      rfl) hs0 i
    rw [List.length_cons, interpNd]
    rw [mapM_shift n (m :: ns) (ns.length + 1) (by simp)]
    simp only [List.getElem?_cons_zero, Option.bind_some, List.drop_succ_cons, List.drop_zero, List.map_cons,
      htemp, h1]
    rw [List.zipWith_cons_cons, interp]
  | [], _, _, _, [], _, h, _, _, _, _ => by simp at h
  | [], _, _, _, _ :: _ :: _, _, h, _, _, _, _ => by simp at h
  | [], _, _, _, [_], [], _, h, _, _, _ => by simp at h
  | [], _, _, _, [_], _ :: _ :: _, _, h, _, _, _ => by simp at h
  | _ :: _, _, _, _, [], _, h, _, _, _, _ => by simp at h
  | _ :: _, _, _, _, _ :: _, [], _, h, _, _, _ => by simp at h

theorem coords_eq : ∀ (s : Nat) (ss cur : List Nat),
    coords (s :: ss) cur = (allIndices (s :: ss)).map (cur ++ ·)
  | s, [], cur => by
    simp only [coords, allIndices, List.map_flatMap, List.map_cons, List.map_nil]
    rw [← List.map_eq_flatMap]
  | s, t :: ss, cur => by
    rw [coords, allIndices, List.map_flatMap]
    congr 1
    funext i
    rw [coords_eq t ss, List.map_map]
    congr 1
    funext j
    simp

theorem optMapM_eq_map {α β : Type} {f : α → Option β} {g : α → β} : ∀ (l : List α),
    (∀ a ∈ l, f a = some (g a)) → l.mapM f = some (l.map g)
  | [], _ => rfl
  | a :: l, h => by
    rw [List.mapM_cons, h a (by simp), optMapM_eq_map l (fun b hb => h b (by simp [hb]))]
    rfl

theorem resizeLoop_eq (k : Kern) {shape : List Nat} {data scales : List ℚ} {sizes : List Nat} {f : List Nat → ℚ}
    (h4 : shape.length = 4) (hsl : scales.length = 4) (hzl : sizes.length = 4)
    (hd : ∀ d ∈ shape, 0 < d) (hs : ∀ s ∈ scales, s ≠ 0)
    (hdata : ∀ j, InBounds shape j → data[rowMajor shape j]? = some (f j)) :
    resizeLoop k shape data scales sizes = some ((allIndices sizes).map fun i =>
      interp (kernelOf k) shape f (List.zipWith halfPixel scales i)) := by
  obtain ⟨n, ns, rfl⟩ : ∃ n ns, shape = n :: ns := by
    match shape, h4 with
    | n :: ns, _ => exact ⟨n, ns, rfl⟩
  obtain ⟨z, zs, rfl⟩ : ∃ n ns, sizes = n :: ns := by
    match sizes, hzl with
    | n :: ns, _ => exact ⟨n, ns, rfl⟩
  unfold resizeLoop
  rw [coords_eq]
  simp only [List.nil_append, List.map_id']
  apply optMapM_eq_map
  intro i hi
  have hb := mem_allIndices.1 hi
  have hl := hb.length
  have hns : ns.length = 3 := by simpa using h4
  have := interpNd_eq k ns n data f scales i (by omega) (by omega) hd hs hdata
  rw [hns] at this
  exact this

/-- The kernels are partitions of unity. -/
theorem kernel_sum (k : Kern) (x : ℚ) :
    ∑ j ∈ Finset.Icc (⌊x⌋ - 2) (⌊x⌋ + 2), kernelOf k (x - j) = 1 := by
  have h := window_eq (w := kernelOf k) x (fun _ => 1)
  simp only [mul_one] at h
  rw [h]
  obtain ⟨h0, h1⟩ := frac_bounds x
  generalize x - (⌊x⌋ : ℚ) = r at *
  cases k with
  | linear =>
    obtain ⟨a, b, c, d, e⟩ := linear_vals h0 h1
    simp only [kernelOf, a, b, c, d, e]
    ring
  | nearest =>
    obtain ⟨a, b, c, d, e⟩ := nearest_vals h0 h1
    simp only [kernelOf, a, b, c, d, e]
    by_cases hr : r ≤ 1 / 2
    · rw [if_pos hr, if_neg (by linarith)]; ring
    · rw [if_neg hr, if_pos (by linarith)]; ring
  | cubic =>
    obtain ⟨a, b, c, d, e⟩ := cubic_vals h0 h1
    simp only [kernelOf, a, b, c, d, e]
    ring

theorem interp_const (k : Kern) (v : ℚ) : ∀ (shape : List Nat) (f : List Nat → ℚ) (xs : List ℚ),
    (∀ d ∈ shape, 0 < d) → xs.length = shape.length → (∀ j, InBounds shape j → f j = v) →
    interp (kernelOf k) shape f xs = v
  | [], f, _, _, _, h => h [] (by simp)
  | n :: ns, f, x :: xs, hd, hl, h => by
    rw [interp]
    have : ∀ j ∈ Finset.Icc (⌊x⌋ - 2) (⌊x⌋ + 2),
        kernelOf k (x - j) * interp (kernelOf k) ns (fun i => f (clamp n j :: i)) xs = kernelOf k (x - j) * v := by
      intro j _
      rw [interp_const k v ns _ xs (fun d h' => hd d (by simp [h'])) (by simpa using hl)]
      intro i hi
      exact h _ (by simp [clamp_lt (hd n (by simp)), hi])
    rw [Finset.sum_congr rfl this, ← Finset.sum_mul, kernel_sum, one_mul]
  | n :: ns, f, [], _, hl, _ => by simp at hl

theorem kernel_int (k : Kern) (x : ℚ) (h : Int → ℚ) (hx : x = ⌊x⌋) :
    ∑ j ∈ Finset.Icc (⌊x⌋ - 2) (⌊x⌋ + 2), kernelOf k (x - j) * h j = h ⌊x⌋ := by
  have h0 : x - ⌊x⌋ = 0 := by linarith
  have := window_eq (w := kernelOf k) x h
  rw [this, h0]
  cases k <;> norm_num [kernelOf, linearKernel, nearestKernel, cubicKernel]

theorem interp_int (k : Kern) : ∀ (shape : List Nat) (f : List Nat → ℚ) (idx : List Nat), InBounds shape idx →
    interp (kernelOf k) shape f (idx.map (Nat.cast : Nat → ℚ)) = f idx
  | [], f, idx, h => by
    have : idx = [] := by simpa using h
    subst this
    rfl
  | n :: ns, f, i :: idx, h => by
    obtain ⟨h1, h2⟩ := inBounds_cons.1 h
    rw [List.map_cons, interp]
    have hf : ⌊(i : ℚ)⌋ = (i : Int) := Int.floor_natCast i
    rw [kernel_int k (i : ℚ) (fun j => interp (kernelOf k) ns (fun l => f (clamp n j :: l)) (idx.map Nat.cast))
      (by rw [hf]; simp), hf, interp_int k ns _ idx h2]
    rw [show clamp n (i : Int) = i by unfold clamp; omega]
  | n :: ns, f, [], h => by simp at h

end Verif.Resize
