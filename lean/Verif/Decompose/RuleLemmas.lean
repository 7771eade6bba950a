import Verif.Decompose.ReduceLemmas

/-! # The replacements compute the same -/

namespace Verif.Decompose

open Verif.Rewrite Verif.Einsum

theorem reduceR_some {r : Red} {x t : Tensor ℝ} {axes : Option (List ℤ)} {keep noop : Bool} :
    reduceR r x axes keep noop = some t ↔ ∃ R, redAxes x.shape.length axes noop = some R ∧
      (∀ idx, InBounds (project R keep 1 x.shape) idx → RedDef r (reduced x R keep idx)) ∧
      t = reduceWith (redR r) x R keep := by
  unfold reduceR
  cases h : redAxes x.shape.length axes noop with
  | none => simp
  | some R =>
    simp only [Option.bind_some]
    constructor
    · intro hh
      split at hh
      · rename_i hd
        exact ⟨R, rfl, fun idx hi => hd idx (mem_allIndices.2 hi), (Option.some.inj hh).symm⟩
      · cases hh
    · rintro ⟨R', hR, hd, rfl⟩
      cases hR
      rw [if_pos fun idx hi => hd idx (mem_allIndices.1 hi)]

theorem reduceR_of {r : Red} {x : Tensor ℝ} {axes : Option (List ℤ)} {keep noop : Bool} {R : List ℕ}
    (h : redAxes x.shape.length axes noop = some R)
    (hd : ∀ idx, InBounds (project R keep 1 x.shape) idx → RedDef r (reduced x R keep idx)) :
    reduceR r x axes keep noop = some (reduceWith (redR r) x R keep) := reduceR_some.2 ⟨R, h, hd, rfl⟩

theorem unaryR_total {u : Un} (h : ∀ v, UnDef u v) (x : Tensor ℝ) : unaryR u x = some (x.map (unR u)) := by
  unfold unaryR
  rw [if_pos fun v _ => h v]

theorem unaryR_build {u : Un} {s : List ℕ} {f : List ℕ → ℝ} (h : ∀ i, InBounds s i → UnDef u (f i)) :
    unaryR u (build s f) = some (build s fun i => unR u (f i)) := by
  unfold unaryR
  rw [if_pos, map_build]
  intro v hv
  obtain ⟨i, hi, rfl⟩ := List.mem_map.1 hv
  exact h i (mem_allIndices.1 hi)

theorem l1_rule {x t : Tensor ℝ} {axes : Option (List ℤ)} {keep noop : Bool} (h : reduceR .l1 x axes keep noop = some t) :
    (unaryR .abs x).bind (fun y => reduceR .sum y axes keep noop) = some t := by
  obtain ⟨R, hR, _, rfl⟩ := reduceR_some.1 h
  rw [unaryR_total (u := .abs) fun _ => trivial, Option.bind_some, reduceR_of (r := .sum) (R := R) (by exact hR) fun _ _ => trivial]
  refine congrArg some (build_congr fun idx _ => ?_)
  rw [reduced_map]
  rfl

theorem sumSquare_rule {x t : Tensor ℝ} {axes : Option (List ℤ)} {keep noop : Bool}
    (h : reduceR .sumSquare x axes keep noop = some t) :
    (binary (biR .mul) x x).bind (fun y => reduceR .sum y axes keep noop) = some t := by
  obtain ⟨R, hR, _, rfl⟩ := reduceR_some.1 h
  have hb : binary (biR .mul) x x = some (x.map fun v => v * v) := by
    rw [binary_same rfl rfl]
    exact congrArg some (eq_build (t := x.map fun v => v * v) rfl fun i hi => get_map _ _ hi).symm
  rw [hb, Option.bind_some, reduceR_of (r := .sum) (R := R) (by exact hR) fun _ _ => trivial]
  refine congrArg some (build_congr fun idx _ => ?_)
  rw [reduced_map]
  rfl

theorem sum_sq_nonneg (l : List ℝ) : 0 ≤ (l.map fun v => v * v).sum :=
  List.sum_nonneg fun v hv => by
    obtain ⟨w, _, rfl⟩ := List.mem_map.1 hv
    exact mul_self_nonneg w

theorem l2_rule {x t : Tensor ℝ} {axes : Option (List ℤ)} {keep noop : Bool} (h : reduceR .l2 x axes keep noop = some t) :
    (reduceR .sumSquare x axes keep noop).bind (unaryR .sqrt) = some t := by
  obtain ⟨R, hR, _, rfl⟩ := reduceR_some.1 h
  rw [reduceR_of (r := .sumSquare) (R := R) hR fun _ _ => trivial, Option.bind_some]
  exact unaryR_build (u := .sqrt) fun i _ => sum_sq_nonneg _

theorem logSum_rule {x t : Tensor ℝ} {axes : Option (List ℤ)} {keep noop : Bool}
    (h : reduceR .logSum x axes keep noop = some t) :
    (reduceR .sum x axes keep noop).bind (unaryR .log) = some t := by
  obtain ⟨R, hR, hd, rfl⟩ := reduceR_some.1 h
  rw [reduceR_of (r := .sum) (R := R) hR fun _ _ => trivial, Option.bind_some]
  exact unaryR_build (u := .log) hd

/-! ### ReduceLogSumExp -/

theorem sum_exp_pos {α : Type} {l : List α} (h : l ≠ []) (f : α → ℝ) : 0 < (l.map fun a => Real.exp (f a)).sum := by
  cases l with
  | nil => exact absurd rfl h
  | cons a l =>
    rw [List.map_cons, List.sum_cons]
    exact add_pos_of_pos_of_nonneg (Real.exp_pos _) (List.sum_nonneg fun v hv => by
      obtain ⟨b, _, rfl⟩ := List.mem_map.1 hv
      exact (Real.exp_pos _).le)

theorem log_sum_exp {α : Type} {l : List α} (h : l ≠ []) (f : α → ℝ) (m : ℝ) :
    Real.log (l.map fun a => Real.exp (f a - m)).sum + m = Real.log (l.map fun a => Real.exp (f a)).sum := by
  have h1 : (l.map fun a => Real.exp (f a - m)).sum = (l.map fun a => Real.exp (f a)).sum * Real.exp (-m) := by
    rw [← List.sum_map_mul_right]
    congr 1
    refine List.map_congr_left fun a _ => ?_
    rw [← Real.exp_add, sub_eq_add_neg]
  rw [h1, Real.log_mul (sum_exp_pos h f).ne' (Real.exp_pos _).ne', Real.log_exp]
  ring

/-- The difference of the data and their maxima. -/
theorem sub_max (x : Tensor ℝ) (R : List ℕ) :
    binary (biR .sub) x (reduceWith (redR .max) x R true) =
      some (build x.shape fun p => x.get p - redR .max (reduced x R true (project R true 0 p))) := by
  unfold binary
  have : (reduceWith (redR .max) x R true).shape = project R true 1 x.shape := rfl
  rw [this, bshape_project, Option.map_some]
  refine congrArg some (build_congr fun p hp => ?_)
  rw [bidx_self hp, bidx_project hp]
  have : (reduceWith (redR .max) x R true).get (project R true 0 p) = redR .max (reduced x R true (project R true 0 p)) :=
    get_build _ (project_inBounds hp)
  rw [this]
  rfl

theorem exp_sub_max (x : Tensor ℝ) (R : List ℕ) :
    (binary (biR .sub) x (reduceWith (redR .max) x R true)).bind (unaryR .exp) =
      some (build x.shape fun p => Real.exp (x.get p - redR .max (reduced x R true (project R true 0 p)))) := by
  rw [sub_max, Option.bind_some]
  exact unaryR_build fun _ _ => trivial

/-- The maximum of the elements that go into the same result. -/
theorem max_same {x : Tensor ℝ} {R : List ℕ} {keep : Bool} {p idx : List ℕ} (hp : InBounds x.shape p)
    (h : project R keep 0 p = idx) : reduced x R true (project R true 0 p) = reduced x R keep idx := by
  cases keep with
  | true => rw [h]
  | false =>
    have h' : dropAt R p = idx := h
    rw [← h', reduced_drop hp.length]

theorem reduced_shift {x : Tensor ℝ} {R : List ℕ} {keep : Bool} {idx : List ℕ} :
    reduced (build x.shape fun p => Real.exp (x.get p - redR .max (reduced x R true (project R true 0 p)))) R keep idx =
      (reduced x R keep idx).map fun v => Real.exp (v - redR .max (reduced x R keep idx)) := by
  rw [reduced_build]
  conv_rhs => rw [reduced]
  rw [List.map_map]
  refine List.map_congr_left fun p hp => ?_
  have := List.mem_filter.1 hp
  rw [max_same (mem_allIndices.1 this.1) (of_decide_eq_true this.2)]
  rfl

/-- Reduction of the shifted exponentials, followed by the addition of the maxima. -/
theorem logSumExp_core {x : Tensor ℝ} {R : List ℕ} {axes : Option (List ℤ)} {keep noop : Bool}
    (hR : redAxes x.shape.length axes noop = some R)
    (hd : ∀ idx, InBounds (project R keep 1 x.shape) idx → reduced x R keep idx ≠ []) :
    (reduceR .logSum (build x.shape fun p => Real.exp (x.get p - redR .max (reduced x R true (project R true 0 p))))
        axes keep noop).bind (fun y => binary (biR .add) y (reduceWith (redR .max) x R keep)) =
      some (reduceWith (redR .logSumExp) x R keep) := by
  rw [reduceR_of (R := R) (by exact hR) (by
    intro idx hi
    rw [reduced_shift]
    exact sum_exp_pos (hd idx hi) _), Option.bind_some]
  rw [binary_same (s := project R keep 1 x.shape) rfl rfl]
  refine congrArg some (build_congr fun idx hi => ?_)
  have e1 := get_build (s := project R keep 1 x.shape) (fun idx => redR .logSum (reduced
    (build x.shape fun p => Real.exp (x.get p - redR .max (reduced x R true (project R true 0 p)))) R keep idx)) hi
  have e2 := get_build (s := project R keep 1 x.shape) (fun idx => redR .max (reduced x R keep idx)) hi
  unfold reduceWith
  rw [build_shape, e1, e2, reduced_shift]
  exact log_sum_exp (hd idx hi) id _

/-- A ReduceLogSumExp whose axes Squeeze understands in the same way as ReduceMax: the axes are kept, or they are given,
or all are reduced. -/
def SqueezeFits (axes : Option (List ℤ)) (keep noop : Bool) : Prop :=
  keep = true ∨ (axes = none ∧ noop = false) ∨ (axes = some [] ∧ noop = true) ∨ ∃ a l, axes = some (a :: l)

theorem project_all (v : ℕ) (s : List ℕ) : project (List.range s.length) true v s = List.replicate s.length v := by
  refine ext_getD (by rw [project_length, List.length_replicate]) fun k hk => ?_
  rw [project_length] at hk
  rw [project_getD hk, if_pos (List.mem_range.2 hk), List.getD_eq_getElem _ _ (by simpa using hk)]
  simp

theorem dropAt_all (s : List ℕ) : dropAt (List.range s.length) s = [] := by
  unfold dropAt
  rw [List.map_eq_nil_iff, List.filter_eq_nil_iff]
  intro p hp
  have := List.snd_lt_of_mem_zipIdx hp
  simpa using this

/-- Squeeze of the maxima. -/
theorem squeeze_max {x : Tensor ℝ} {R : List ℕ} {axes : Option (List ℤ)} {noop : Bool}
    (hR : redAxes x.shape.length axes noop = some R) (hs : SqueezeFits axes false noop) :
    Rewrite.squeeze (reduceWith (redR .max) x R true) axes = some (reduceWith (redR .max) x R false) := by
  have hlen : (reduceWith (redR .max) x R true).shape.length = x.shape.length := project_length _ _ _
  rcases hs with h | ⟨rfl, rfl⟩ | h
  · cases h
  · have : R = List.range x.shape.length := by
      have : redAxes x.shape.length none false = some (List.range x.shape.length) := rfl
      rw [this] at hR
      exact (Option.some.inj hR).symm
    subst this
    rw [← retag_reduce]
    show Tensor.retag _ _ = _
    congr 1
    show (project (List.range x.shape.length) true 1 x.shape).filter _ = _
    rw [project_all, dropAt_all]
    simp
  · have hax : ∃ l, axes = some l ∧ l.mapM (normAxis x.shape.length) = some R := by
      rcases h with ⟨rfl, rfl⟩ | ⟨a, l, rfl⟩
      · exact ⟨[], rfl, hR⟩
      · exact ⟨a :: l, rfl, hR⟩
    obtain ⟨l, rfl, hm⟩ := hax
    unfold Rewrite.squeeze
    simp only
    rw [hlen, hm, Option.bind_some, if_pos, ← retag_reduce]
    · congr 1
      exact dropAt_project R 1 x.shape
    · intro a ha
      have := axes_lt hm a ha
      show (project R true 1 x.shape).getD a 0 = 1
      rw [project_getD this, if_pos ha]

theorem redAxes_lt {r : ℕ} {axes : Option (List ℤ)} {noop : Bool} {R : List ℕ} (h : redAxes r axes noop = some R) :
    ∀ a ∈ R, a < r := by
  unfold redAxes at h
  split at h
  · cases noop
    · cases h
      intro a ha
      simpa using ha
    · cases h
      intro a ha
      cases ha
  · exact fun a ha => axes_lt h a ha

/-- The maxima exist. -/
theorem max_def {x : Tensor ℝ} {R : List ℕ} {keep : Bool}
    (hd : ∀ idx, InBounds (project R keep 1 x.shape) idx → reduced x R keep idx ≠ []) :
    ∀ idx, InBounds (project R true 1 x.shape) idx → reduced x R true idx ≠ [] := by
  cases keep with
  | true => exact hd
  | false =>
    intro idx hi
    have h1 := hd (dropAt R idx) (by
      have := inBounds_dropFrom R (k := 0) hi
      rwa [← dropAt_eq, ← dropAt_eq, dropAt_project] at this)
    rwa [reduced_drop (by rw [hi.length, project_length]), project_self hi] at h1

theorem logSumExp_keep {x t : Tensor ℝ} {axes : Option (List ℤ)} {noop : Bool}
    (h : reduceR .logSumExp x axes true noop = some t) :
    ((((reduceR .max x axes true noop).bind fun m => binary (biR .sub) x m).bind (unaryR .exp)).bind
      fun y => reduceR .logSum y axes true noop).bind (fun y => (reduceR .max x axes true noop).bind fun m =>
        binary (biR .add) y m) = some t := by
  obtain ⟨R, hR, hd, rfl⟩ := reduceR_some.1 h
  rw [reduceR_of (r := .max) (R := R) hR (max_def hd), Option.bind_some, exp_sub_max, Option.bind_some]
  exact logSumExp_core hR hd

theorem logSumExp_drop {x t : Tensor ℝ} {axes : Option (List ℤ)} {noop : Bool} (hs : SqueezeFits axes false noop)
    (h : reduceR .logSumExp x axes false noop = some t) :
    ((((reduceR .max x axes true noop).bind fun m => binary (biR .sub) x m).bind (unaryR .exp)).bind
      fun y => reduceR .logSum y axes false noop).bind (fun y => ((reduceR .max x axes true noop).bind fun m =>
        Rewrite.squeeze m axes).bind fun m => binary (biR .add) y m) = some t := by
  obtain ⟨R, hR, hd, rfl⟩ := reduceR_some.1 h
  rw [reduceR_of (r := .max) (R := R) hR (max_def hd), Option.bind_some, Option.bind_some, exp_sub_max, Option.bind_some,
    squeeze_max hR hs]
  exact logSumExp_core hR hd

/-! ### LogSoftmax -/

theorem logSoftmax_rule {x t : Tensor ℝ} {axis : ℤ} (h : logSoftmaxR x axis = some t) :
    (softmaxR x axis).bind (unaryR .log) = some t := by
  unfold logSoftmaxR at h
  unfold softmaxR
  cases ha : normAxis x.shape.length axis with
  | none => rw [ha] at h; cases h
  | some a =>
    rw [ha, Option.map_some] at h
    cases h
    have hlt : a < x.shape.length := by
      unfold normAxis at ha
      split at ha
      · cases ha; omega
      · split at ha
        · cases ha; omega
        · cases ha
    have hpos : ∀ i, InBounds x.shape i → 0 < expSum x a i := by
      intro i hi
      refine sum_exp_pos ?_ _
      have := (inBounds_iff_getD.1 hi).2 a hlt
      intro h0
      rw [List.range_eq_nil] at h0
      omega
    rw [Option.map_some, Option.bind_some, unaryR_build (u := .log) fun i hi => div_pos (Real.exp_pos _) (hpos i hi)]
    refine congrArg some (build_congr fun i hi => ?_)
    show Real.log _ = _
    rw [Real.log_div (Real.exp_pos _).ne' (hpos i hi).ne', Real.log_exp]

/-! ### Scaler -/

theorem castR_f32 (x : Tensor ℝ) : unaryR (.cast f32) x = some x := by
  rw [unaryR_total (u := .cast f32) fun _ => trivial]
  refine congrArg some (Tensor.ext' rfl fun i hi => ?_)
  exact get_map _ _ hi

/-- The constant of an attribute of Scaler. -/
theorem binary_row (f : ℝ → ℝ → ℝ) {x : Tensor ℝ} {l : List ℝ} (d : ℝ) (hx : x.shape ≠ []) (h : ScalerFits (some l) x.shape)
    (hl : l ≠ []) :
    binary f x ⟨[l.length], l, by simp⟩ = some (build x.shape fun i => f (x.get i) (scalerAt (some l) d i)) := by
  have hpos : 0 < x.shape.length := List.length_pos_iff.2 hx
  have hfit := h l rfl
  have hlast : x.shape.getLastD 0 = x.shape.getD (x.shape.length - 1) 0 := by
    rw [List.getLastD_eq_getLast?, List.getLast?_eq_getElem?, List.getD_eq_getElem?_getD]
  have hb : bshape x.shape [l.length] = some x.shape := by
    rw [bshape_comm]
    refine bshape_of_bto ⟨by simp only [List.length_singleton]; omega, fun k hk => ?_⟩
    have : k = 0 := by simpa using hk
    subst this
    simp only [List.length_singleton, Nat.add_zero]
    rw [← hlast]
    exact hfit
  unfold binary
  show (bshape x.shape [l.length]).map _ = _
  rw [hb, Option.map_some]
  refine congrArg some (build_congr fun i hi => ?_)
  rw [bidx_self hi]
  congr 1
  have hil := hi.length
  have hdrop : i.drop (i.length - 1) = [i.getLastD 0] := by
    have hne : i ≠ [] := by
      intro h0
      rw [h0] at hil
      simp at hil
      omega
    rw [List.drop_length_sub_one hne, List.getLastD_eq_getLast?, List.getLast?_eq_some_getLast hne]
    rfl
  show (Tensor.get ⟨[l.length], l, _⟩ (bidx [l.length] i)) = _
  unfold bidx Tensor.get scalerAt
  simp only [List.length_singleton, hdrop, List.zipWith_cons_cons, List.zipWith_nil_left, rowMajor, List.prod_nil, mul_one,
    Nat.add_zero]
  by_cases h1 : l.length = 1
  · rw [if_pos h1, if_pos h1, List.getD_eq_getElem _ _ (by omega), List.getD_eq_getElem _ _ (by omega)]
  · rw [if_neg h1, if_neg h1]
    have hlt : i.getLastD 0 < l.length := by
      rcases hfit with h2 | h2
      · exact absurd h2 h1
      · have h3 : i.getLastD 0 = i.getD (x.shape.length - 1) 0 := by
          rw [List.getLastD_eq_getLast?, List.getLast?_eq_getElem?, List.getD_eq_getElem?_getD, hil]
        rw [h2, hlast, h3]
        exact (inBounds_iff_getD.1 hi).2 _ (by omega)
    rw [List.getD_eq_getElem _ _ hlt, List.getD_eq_getElem _ _ hlt]

end Verif.Decompose
