import Verif.Recompose.GeluSound

/-! # What is recognised, and examples -/

namespace Verif.Recompose

open Verif.Rewrite Verif.Decompose

theorem scan_all {a i : ℕ} : ∀ {bs : List Bool}, (∀ b ∈ bs, b = true) → scanAxes (some a) i bs = some (some a)
  | [], _ => rfl
  | b :: bs, h => by
    rw [scanAxes, if_pos (h b (by simp))]
    exact scan_all fun c hc => h c (by simp [hc])

theorem scan_of {r : ℕ} : ∀ {i : ℕ} {bs : List Bool}, i ≤ r → r < i + bs.length →
    (∀ k < bs.length, bs.getD k false = true ↔ r ≤ i + k) → scanAxes none i bs = some (some r)
  | i, [], h1, h2, _ => by simp at h2; omega
  | i, b :: bs, h1, h2, h3 => by
    rw [scanAxes]
    have h0 := h3 0 (by simp)
    simp only [List.getD_cons_zero, add_zero] at h0
    cases b with
    | true =>
      have hr : r = i := by have := h0.1 rfl; omega
      subst hr
      rw [if_pos rfl]
      refine scan_all fun c hc => ?_
      obtain ⟨k, hk, rfl⟩ := List.mem_iff_getElem.1 hc
      have := (h3 (k + 1) (by simpa using hk)).2 (by omega)
      rw [List.getD_cons_succ, List.getD_eq_getElem _ _ hk] at this
      exact this
    | false =>
      have hr : i + 1 ≤ r := by
        by_contra hc
        have := h0.2 (by omega)
        cases this
      rw [if_neg (by simp)]
      refine scan_of hr (by simp only [List.length_cons] at h2; omega) fun k hk => ?_
      have := h3 (k + 1) (by simpa using hk)
      rw [List.getD_cons_succ] at this
      rw [this]
      omega

theorem suitable_of {axes : List ℤ} {r a : ℕ} {R : List ℕ} (h1 : axes.mapM (normAxis r) = some R) (h2 : From a r R) :
    suitableAxis (some axes) true r = .ok a := by
  unfold suitableAxis
  rw [if_pos rfl, Option.map_some, h1]
  simp only
  rw [scan_of (r := a) (Nat.zero_le _) (by simpa using h2.1) fun k hk => ?_]
  simp only [List.length_map, List.length_range] at hk
  rw [List.getD_eq_getElem _ _ (by simpa using hk)]
  simpa using h2.2 k hk

theorem asBi_none {b : NBi} {e : T} (h : ∀ p q, e ≠ .bi b p q) : e.asBi b = none := by
  cases e <;> try rfl
  rename_i b' p q
  refine if_neg ?_
  rintro rfl
  exact h p q rfl

theorem fullPattern_none {I : Info} {a : ℕ} {d : T} (h : ∀ p q, d ≠ .bi .sub p q) :
    fullPattern I a d = .ok none := by
  unfold fullPattern
  rw [asBi_none h]

theorem fullPattern_mean {I : Info} {a r : ℕ} {x : T} {axes : List ℤ} {R : List ℕ} (hs : ∀ e, I.same e e = true)
    (hu : ∀ e, I.oneUse e = true) {s : List (Option ℕ)} (hx : I.shape x = some s) (hr : s.length = r)
    (h1 : axes.mapM (normAxis r) = some R) (h2 : From a r R) :
    fullPattern I a (.bi .sub x (.mean x (some axes) true)) = .ok (some x) := by
  unfold fullPattern
  simp only [T.asBi, if_true, T.asMean, hs, hu, Bool.and_self, hx, hr]
  rw [show meanAxes (some axes) true r a = .ok true by
    unfold meanAxes; rw [suitable_of h1 h2]; simp]
  rfl

/-- The attribute epsilon that is set for a constant. -/
def epsOf : Cst → Option ℝ
  | .float v => some v
  | .dense _ => none

/-- The second half of the match. -/
theorem matchVarEps_mean {I : Info} {a r : ℕ} {g : Group} {c : Cst} {axes : List ℤ} {R : List ℕ} {o : Option T}
    (hv : g.varEps = .bi .add (.mean (.bi .mul g.d g.d) (some axes) true) (.cst c))
    (hs : ∀ e, I.same e e = true) (hu : ∀ e, I.oneUse e = true) (hc : isScalarTensor I (.cst c) = true)
    {s : List (Option ℕ)} (hx : I.shape (.bi .mul g.d g.d) = some s) (hr : s.length = r)
    (h1 : axes.mapM (normAxis r) = some R) (h2 : From a r R) (hf : fullPattern I a g.d = .ok o) :
    matchVarEps I g = .ok (normOp g a (epsOf c) o) := by
  unfold matchVarEps
  rw [hv]
  simp only [T.asBi, if_true, T.asMean]
  unfold matchVar
  simp only [T.asBi, if_true, hs, hu, Bool.and_self, Bool.true_and, hc, Bool.and_true]
  rw [if_pos (by simp [hu])]
  have : epsilonAttr I (.cst c) = .ok (epsOf c) := by
    cases c <;> rfl
  rw [this]
  simp only [MRes.bind, hx, hr]
  rw [suitable_of h1 h2]
  simp only [MRes.bind]
  rw [hf]

open Classical in
/-- Complete information about a graph in which every value has one use. -/
noncomputable def exactInfo (g : Bool → ℝ → ℝ) (env : ℕ → Tensor ℝ) (block : ℕ → Bool) : Info :=
  ⟨fun e f => decide (e = f), fun _ => true, fun e => (e.eval g env).map fun t => t.shape.map some, block⟩

open Classical in
theorem exactInfo_ok (g : Bool → ℝ → ℝ) (env : ℕ → Tensor ℝ) (block : ℕ → Bool) : (exactInfo g env block).Ok g env := by
  constructor
  · intro e f h
    exact @of_decide_eq_true _ (Classical.propDecidable _) h
  · intro e s t h1 h2
    have h1' : (e.eval g env).map (fun t => t.shape.map some) = some s := h1
    rw [h2] at h1'
    cases h1'
    show List.Forall₂ _ _ _
    rw [List.forall₂_map_left_iff]
    exact List.forall₂_same.2 fun d _ n hn => Option.some.inj hn

/-! ### Tensors with one element -/

/-- A tensor with one element. -/
def c1 (v : ℝ) : Tensor ℝ := build [1] fun _ => v

/-- A scalar. -/
def c0 (v : ℝ) : Tensor ℝ := build [] fun _ => v

theorem c1_get (v : ℝ) : (c1 v).get [0] = v := rfl

theorem bounds1 {i : List ℕ} : InBounds [1] i ↔ i = [0] := by
  constructor
  · intro h
    match i, h with
    | [a], h =>
      have := (inBounds_cons.1 h).1
      rw [show a = 0 by omega]
    | [], h => cases h
    | _ :: _ :: _, h => cases (inBounds_cons.1 h).2
  · rintro rfl
    exact .cons (by omega) .nil

theorem nbin11 {b : NBi} {u v : ℝ} (h : NBiDef b u v) : nbinary b (c1 u) (c1 v) = some (c1 (nbiR b u v)) := by
  refine nbinary_some.2 ⟨[1], rfl, fun i hi => ?_, ?_⟩
  · rw [bounds1.1 hi]; exact h
  · refine build_congr fun i hi => ?_
    rw [bounds1.1 hi]
    rfl

theorem nbin10 {b : NBi} {u v : ℝ} (h : NBiDef b u v) : nbinary b (c1 u) (c0 v) = some (c1 (nbiR b u v)) := by
  refine nbinary_some.2 ⟨[1], rfl, fun i hi => ?_, ?_⟩
  · rw [bounds1.1 hi]; exact h
  · refine build_congr fun i hi => ?_
    rw [bounds1.1 hi]
    rfl

theorem nun1 {u : NUn} {v : ℝ} (h : NUnDef u v) : nunary u (c1 v) = some (c1 (nunR u v)) := by
  refine nunary_some.2 ⟨fun i hi => ?_, ?_⟩
  · rw [bounds1.1 hi]; exact h
  · exact (map_build _ _ _).symm

theorem reduced1 (v : ℝ) : reduced (c1 v) [0] true [0] = [v] := rfl

theorem mean1 (v : ℝ) {axes : Option (List ℤ)} (h : redAxes 1 axes false = some [0]) :
    meanR (c1 v) axes true = some (c1 v) := by
  refine meanR_some.2 ⟨[0], h, fun i hi => ?_, ?_⟩
  · have : project [0] true 1 [1] = [1] := by decide
    rw [show (c1 v).shape = [1] from rfl, this] at hi
    rw [bounds1.1 hi, reduced1]
    simp
  · refine build_congr fun i hi => ?_
    rw [bounds1.1 hi, reduced1]
    simp [avg]

theorem rms1 {v s eps : ℝ} (h : 0 < v ^ 2 + eps) :
    rmsNormR (c1 v) (c1 s) 0 eps = some (c1 (v / Real.sqrt (v ^ 2 + eps) * s)) := by
  have hr : row (c1 v) 0 [0] = [v] := rfl
  have hsp : spread [v] 0 = v ^ 2 := by simp [spread, avg]
  unfold rmsNormR normalize
  have : normAxis (c1 v).shape.length 0 = some 0 := rfl
  rw [this, Option.bind_some, if_pos]
  · refine congrArg some (build_congr fun i hi => ?_)
    rw [bounds1.1 hi, hr, hsp, sub_zero]
    rfl
  · refine ⟨rfl, fun i hi => ?_⟩
    rw [bounds1.1 hi, hr, hsp]
    exact h

/-- A tensor with two elements. -/
def v2 (a b : ℝ) : Tensor ℝ := build [2] fun i => if i = [0] then a else b

theorem bounds2 {i : List ℕ} : InBounds [2] i ↔ i = [0] ∨ i = [1] := by
  constructor
  · intro h
    match i, h with
    | [a], h =>
      have := (inBounds_cons.1 h).1
      rcases (by omega : a = 0 ∨ a = 1) with rfl | rfl
      · exact .inl rfl
      · exact .inr rfl
    | [], h => cases h
    | _ :: _ :: _, h => cases (inBounds_cons.1 h).2
  · rintro (rfl | rfl)
    · exact .cons (by omega) .nil
    · exact .cons (by omega) .nil

theorem nbin22 {b : NBi} {u v u' v' : ℝ} (h : NBiDef b u u') (h' : NBiDef b v v') :
    nbinary b (v2 u v) (v2 u' v') = some (v2 (nbiR b u u') (nbiR b v v')) := by
  refine nbinary_some.2 ⟨[2], rfl, fun i hi => ?_, ?_⟩
  · rcases bounds2.1 hi with rfl | rfl
    · exact h
    · exact h'
  · refine build_congr fun i hi => ?_
    rcases bounds2.1 hi with rfl | rfl <;> rfl

theorem nbin21 {b : NBi} {u v w : ℝ} (h : NBiDef b u w) (h' : NBiDef b v w) :
    nbinary b (v2 u v) (c1 w) = some (v2 (nbiR b u w) (nbiR b v w)) := by
  refine nbinary_some.2 ⟨[2], rfl, fun i hi => ?_, ?_⟩
  · rcases bounds2.1 hi with rfl | rfl
    · exact h
    · exact h'
  · refine build_congr fun i hi => ?_
    rcases bounds2.1 hi with rfl | rfl <;> rfl

theorem mean2 (u v : ℝ) {axes : Option (List ℤ)} (h : redAxes 1 axes false = some [0]) :
    meanR (v2 u v) axes true = some (c1 ((u + v) / 2)) := by
  have hr : reduced (v2 u v) [0] true [0] = [u, v] := rfl
  refine meanR_some.2 ⟨[0], h, fun i hi => ?_, ?_⟩
  · have : project [0] true 1 [2] = [1] := by decide
    rw [show (v2 u v).shape = [2] from rfl, this] at hi
    rw [bounds1.1 hi, hr]
    simp
  · refine build_congr fun i hi => ?_
    rw [bounds1.1 hi, hr]
    simp [avg]

/-- Only the ranks are known. -/
noncomputable def rankInfo (g : Bool → ℝ → ℝ) (env : ℕ → Tensor ℝ) : Info :=
  ⟨fun _ _ => false, fun _ => true, fun e => (e.eval g env).map fun t => t.shape.map fun _ => none, fun _ => false⟩

theorem rankInfo_ok (g : Bool → ℝ → ℝ) (env : ℕ → Tensor ℝ) : (rankInfo g env).Ok g env := by
  constructor
  · intro e f h
    cases h
  · intro e s t h1 h2
    have h1' : (e.eval g env).map (fun t => t.shape.map fun _ => none) = some s := h1
    rw [h2] at h1'
    cases h1'
    show List.Forall₂ _ _ _
    rw [List.forall₂_map_left_iff]
    exact List.forall₂_same.2 fun d _ n hn => by cases hn

end Verif.Recompose
