import Verif.Recompose.NormModel
import Verif.Decompose.ReduceLemmas
import Verif.Rewrite.ArithSem

/-! # Facts about normalisation -/

namespace Verif.Recompose

open Verif.Rewrite Verif.Decompose

theorem nbinary_some {b : NBi} {x y z : Tensor ℝ} : nbinary b x y = some z ↔ ∃ s, bshape x.shape y.shape = some s ∧
    (∀ i, InBounds s i → NBiDef b (x.get (bidx x.shape i)) (y.get (bidx y.shape i))) ∧
    z = build s fun i => nbiR b (x.get (bidx x.shape i)) (y.get (bidx y.shape i)) := by
  unfold nbinary
  cases h : bshape x.shape y.shape with
  | none => simp
  | some s =>
    simp only [Option.bind_some]
    constructor
    · intro hh
      split at hh
      · rename_i hd
        exact ⟨s, rfl, hd, (Option.some.inj hh).symm⟩
      · cases hh
    · rintro ⟨s', hs, hd, rfl⟩
      cases hs
      rw [if_pos hd]

theorem nunary_some {u : NUn} {x z : Tensor ℝ} : nunary u x = some z ↔
    (∀ i, InBounds x.shape i → NUnDef u (x.get i)) ∧ z = x.map (nunR u) := by
  have key : (∀ v ∈ x.data, NUnDef u v) ↔ ∀ i, InBounds x.shape i → NUnDef u (x.get i) := by
    constructor
    · exact fun h i hi => h _ (get_mem hi)
    · intro h v hv
      have hb : x.data = (build x.shape x.get).data := by rw [build_get]
      rw [hb] at hv
      obtain ⟨i, hi, rfl⟩ := List.mem_map.1 hv
      exact h i (mem_allIndices.1 hi)
  unfold nunary
  rw [← key]
  split
  · rename_i h
    constructor
    · intro hh
      exact ⟨h, (Option.some.inj hh).symm⟩
    · rintro ⟨-, rfl⟩
      rfl
  · rename_i h
    simp [h]

theorem meanR_some {x z : Tensor ℝ} {axes : Option (List ℤ)} {keep : Bool} : meanR x axes keep = some z ↔
    ∃ R, redAxes x.shape.length axes false = some R ∧
      (∀ idx, InBounds (project R keep 1 x.shape) idx → reduced x R keep idx ≠ []) ∧ z = reduceWith avg x R keep := by
  unfold meanR
  cases h : redAxes x.shape.length axes false with
  | none => simp
  | some R =>
    simp only [Option.bind_some]
    constructor
    · intro hh
      split at hh
      · rename_i hd
        exact ⟨R, rfl, hd, (Option.some.inj hh).symm⟩
      · cases hh
    · rintro ⟨R', hs, hd, rfl⟩
      cases hs
      rw [if_pos hd]

theorem nmul_comm (x y : Tensor ℝ) : nbinary .mul x y = nbinary .mul y x := by
  have h : ∀ x y z, nbinary .mul x y = some z → nbinary .mul y x = some z := by
    intro x y z h
    obtain ⟨s, hs, _, rfl⟩ := nbinary_some.1 h
    refine nbinary_some.2 ⟨s, by rw [bshape_comm, hs], fun _ _ => trivial, build_congr fun i _ => mul_comm _ _⟩
  cases h1 : nbinary .mul x y with
  | none =>
    cases h2 : nbinary .mul y x with
    | none => rfl
    | some z => rw [h y x z h2] at h1; cases h1
  | some z => rw [h x y z h1]

/-! ### Rows -/

/-- The axes from `a` on. -/
def From (a r : ℕ) (R : List ℕ) : Prop := a < r ∧ ∀ k < r, k ∈ R ↔ a ≤ k

theorem project_row {a r : ℕ} {R p i : List ℕ} (h : From a r R) (hp : p.length = r) (hi : i.length = r) :
    project R true 0 p = project R true 0 i ↔ p.take a = i.take a := by
  constructor
  · intro hh
    refine ext_getD (by simp [hp, hi]) fun k hk => ?_
    have hk' : k < a ∧ k < r := by simp [hp] at hk; omega
    have h1 : (project R true 0 p).getD k 0 = (project R true 0 i).getD k 0 := by rw [hh]
    have hn : k ∉ R := fun hR => by have := (h.2 k hk'.2).1 hR; omega
    rw [project_getD (by omega), project_getD (by omega), if_neg hn, if_neg hn] at h1
    simp only [List.getD_eq_getElem?_getD, List.getElem?_take, hk'.1, if_true] at h1 ⊢
    exact h1
  · intro hh
    refine ext_getD (by rw [project_length, project_length, hp, hi]) fun k hk => ?_
    rw [project_length] at hk
    rw [project_getD hk, project_getD (by omega)]
    split
    · rfl
    · rename_i hn
      have hka : k < a := by
        by_contra hc
        exact hn ((h.2 k (by omega)).2 (by omega))
      have h1 : (p.take a).getD k 0 = (i.take a).getD k 0 := by rw [hh]
      simp only [List.getD_eq_getElem?_getD, List.getElem?_take, hka, if_true] at h1 ⊢
      exact h1

theorem reduced_row {x : Tensor ℝ} {a : ℕ} {R i : List ℕ} (h : From a x.shape.length R) (hi : i.length = x.shape.length) :
    reduced x R true (project R true 0 i) = row x a i := by
  unfold reduced row
  congr 1
  refine List.filter_congr fun p hp => ?_
  have hl := (mem_allIndices.1 hp).length_eq
  exact decide_eq_decide.2 (project_row h (by omega) hi)

theorem row_congr {x : Tensor ℝ} {a : ℕ} {p i : List ℕ} (h : p.take a = i.take a) : row x a p = row x a i := by
  unfold row
  rw [h]

/-- The rows of a function of the rows. -/
theorem row_shift (x : Tensor ℝ) (a : ℕ) (i : List ℕ) (m : List ℝ → ℝ) (f : ℝ → ℝ) :
    row (build x.shape fun p => f (x.get p - m (row x a p))) a i = (row x a i).map fun v => f (v - m (row x a i)) := by
  conv_lhs => unfold row
  conv_rhs => unfold row
  rw [List.map_map, build_shape]
  refine List.map_congr_left fun p hp => ?_
  obtain ⟨h1, h2⟩ := List.mem_filter.1 hp
  rw [get_build _ (mem_allIndices.1 h1)]
  have := of_decide_eq_true h2
  simp only [Function.comp]
  rw [this]

/-- The mean, stretched to the shape of the data. -/
theorem mean_get {x : Tensor ℝ} {a : ℕ} {R i : List ℕ} (h : From a x.shape.length R) (hi : InBounds x.shape i) :
    (reduceWith avg x R true).get (bidx (reduceWith avg x R true).shape i) = avg (row x a i) := by
  have : (reduceWith avg x R true).shape = project R true 1 x.shape := rfl
  rw [this, bidx_project hi, ← reduced_row h hi.length]
  exact get_build _ (project_inBounds hi)

/-! ### Quotient by the standard deviation -/

/-- `N` is `D` divided by the square root of `V`. -/
def IsNorm (D V N : Tensor ℝ) : Prop :=
  N = build D.shape (fun i => D.get i / Real.sqrt (V.get (bidx V.shape i))) ∧
    ∀ i, InBounds D.shape i → 0 < V.get (bidx V.shape i)

theorem isNorm_div {D V S N : Tensor ℝ} (hb : bshape D.shape V.shape = some D.shape) (hS : nunary .sqrt V = some S)
    (hN : nbinary .div D S = some N) : IsNorm D V N := by
  obtain ⟨hd, rfl⟩ := nunary_some.1 hS
  obtain ⟨s, hs, hq, rfl⟩ := nbinary_some.1 hN
  rw [map_shape, hb] at hs
  cases hs
  have hg : ∀ i, InBounds D.shape i → (V.map (nunR .sqrt)).get (bidx V.shape i) = Real.sqrt (V.get (bidx V.shape i)) :=
    fun i hi => get_map _ _ ((bto_bshape_right hb).inBounds hi)
  constructor
  · refine build_congr fun i hi => ?_
    rw [bidx_self hi, map_shape, hg i hi]
    rfl
  · intro i hi
    have h1 := hq i hi
    rw [map_shape, hg i hi] at h1
    have h2 : 0 ≤ V.get (bidx V.shape i) := hd _ ((bto_bshape_right hb).inBounds hi)
    rcases h2.lt_or_eq with h | h
    · exact h
    · rw [← h, Real.sqrt_zero] at h1
      exact absurd rfl h1

theorem isNorm_recip {D V S I N : Tensor ℝ} (hb : bshape D.shape V.shape = some D.shape) (hS : nunary .sqrt V = some S)
    (hI : nunary .recip S = some I) (hN : nbinary .mul D I = some N) : IsNorm D V N := by
  obtain ⟨hd, rfl⟩ := nunary_some.1 hS
  obtain ⟨hq, rfl⟩ := nunary_some.1 hI
  obtain ⟨s, hs, -, rfl⟩ := nbinary_some.1 hN
  rw [map_shape, map_shape, hb] at hs
  cases hs
  have hin : ∀ i, InBounds D.shape i → InBounds V.shape (bidx V.shape i) := fun i hi => (bto_bshape_right hb).inBounds hi
  constructor
  · refine build_congr fun i hi => ?_
    rw [bidx_self hi, map_shape, map_shape, get_map _ _ (by exact hin i hi), get_map _ _ (hin i hi)]
    show D.get i * (1 / Real.sqrt _) = _
    rw [mul_one_div]
  · intro i hi
    have h1 := hq _ (by exact hin i hi)
    rw [get_map _ _ (hin i hi)] at h1
    have h2 : 0 ≤ V.get (bidx V.shape i) := hd _ (hin i hi)
    rcases h2.lt_or_eq with h | h
    · exact h
    · rw [← h] at h1
      exact absurd Real.sqrt_zero h1

/-- Division of 1 is Reciprocal. -/
theorem one_div_recip {O S I : Tensor ℝ} (hO : IsSc O.shape) (h1 : O.one = 1) (hS : S.shape ≠ [])
    (h : nbinary .div O S = some I) : nunary .recip S = some I := by
  obtain ⟨s, hs, hq, rfl⟩ := nbinary_some.1 h
  rw [bshape_sc hO (.inr hS)] at hs
  cases hs
  have hget : ∀ i, InBounds S.shape i → S.get (bidx S.shape i) = S.get i := fun i hi => by rw [bidx_self hi]
  refine nunary_some.2 ⟨fun i hi => ?_, ?_⟩
  · have := hq i hi
    rw [hget i hi] at this
    exact this
  · symm
    refine eq_build rfl fun i hi => ?_
    rw [get_map _ _ hi, sc_get hO, hget i hi, h1]
    rfl

/-! ### Normalisation -/

/-- The end of all patterns: the normalised data times the scale. -/
theorem normalize_core {m : List ℝ → ℝ} {x D V E N S y : Tensor ℝ} {a : ℕ} {R : List ℕ} {eps : ℝ}
    (hR : From a x.shape.length R)
    (hD : D = build x.shape fun i => x.get i - m (row x a i))
    (hV : nbinary .add V E = some N ∨ nbinary .add E V = some N)
    (hVm : V = reduceWith avg (build x.shape fun i => (x.get i - m (row x a i)) ^ 2) R true)
    (hE : IsSc E.shape) (heps : E.one = eps) {Q : Tensor ℝ} (hN : IsNorm D N Q) (hy : nbinary .mul Q S = some y)
    (hsh : y.shape = x.shape) : normalize m x S a eps = some y := by
  have hVs : V.shape = project R true 1 x.shape := by rw [hVm]; rfl
  have hVne : V.shape ≠ [] := by
    intro h
    have h1 := congrArg List.length h
    rw [hVs, project_length] at h1
    have := hR.1
    simp at h1
    simp [h1] at this
  have hNg : N.shape = V.shape ∧ ∀ i, InBounds V.shape i → N.get i = V.get i + eps := by
    rcases hV with hV | hV
    · obtain ⟨s, hs, -, rfl⟩ := nbinary_some.1 hV
      rw [bshape_comm, bshape_sc hE (.inr hVne)] at hs
      cases hs
      refine ⟨rfl, fun i hi => ?_⟩
      rw [get_build _ hi, sc_get hE, heps, bidx_self hi]
      rfl
    · obtain ⟨s, hs, -, rfl⟩ := nbinary_some.1 hV
      rw [bshape_sc hE (.inr hVne)] at hs
      cases hs
      refine ⟨rfl, fun i hi => ?_⟩
      rw [get_build _ hi, sc_get hE, heps, bidx_self hi]
      exact add_comm _ _
  have hVal : ∀ i, InBounds x.shape i → N.get (bidx N.shape i) = spread (row x a i) (m (row x a i)) + eps := by
    intro i hi
    have hb : InBounds V.shape (bidx V.shape i) := by
      rw [hVs, bidx_project hi]
      exact project_inBounds hi
    rw [hNg.1, hNg.2 _ hb]
    congr 1
    rw [hVm]
    rw [mean_get (x := build x.shape fun i => (x.get i - m (row x a i)) ^ 2) hR hi, row_shift x a i m (fun v => v ^ 2)]
    rfl
  obtain ⟨hQ, hpos⟩ := hN
  have hDs : D.shape = x.shape := by rw [hD]; rfl
  rw [hDs] at hQ hpos
  have hQs : Q.shape = x.shape := by rw [hQ]; rfl
  obtain ⟨s, hs, -, hyb⟩ := nbinary_some.1 hy
  have : s = x.shape := by rw [← hsh, hyb]; rfl
  subst this
  rw [hQs] at hs
  have hax : normAxis x.shape.length (a : ℤ) = some a := by
    have := hR.1
    unfold normAxis
    rw [if_pos ⟨by omega, by omega⟩]
    rfl
  unfold normalize
  rw [hax, Option.bind_some, if_pos ⟨hs, fun i hi => by rw [← hVal i hi]; exact hpos i hi⟩, hyb]
  refine congrArg some (build_congr fun i hi => ?_)
  show _ = Q.get (bidx Q.shape i) * S.get _
  rw [hQs, bidx_self hi]
  congr 1
  rw [hQ, get_build _ hi, hVal i hi, hD, get_build _ hi]

end Verif.Recompose
