import Verif.Decompose.Done
import Verif.Decompose.Sum

/-!
# C96: composite operators are taken apart

Specification: the operators over the real numbers (`Verif/Decompose/Spec.lean`, `eval` and `ty` in `Model.lean`),
`Composite`, `All`, `Safe`, `Filled` and `sumR`.
-/

namespace Verif.Props

open Verif.Rewrite hiding eval
open Verif.Decompose

/-- Whatever rewrites a pass applies, in whatever order and place, the graph keeps its element type and computes the same. -/
theorem C96_same_partial {p : Pass} {hs : Bool} {Γ : ℕ → DT} {env : ℕ → Tensor ℝ} {e e' : E}
    (hsafe : All (Safe hs Γ env) e) (h : Steps p hs Γ e e') {d : DT} (hd : ty Γ e = some d) {t : Tensor ℝ}
    (ht : eval Γ env e = some t) : ty Γ e' = some d ∧ eval Γ env e' = some t :=
  (sound_steps h hsafe d t hd ht).2

/-- The rewriting ends, in whatever order rewrites are applied. -/
theorem C96_ends (p : Pass) (hs : Bool) (Γ : ℕ → DT) : ¬ ∃ f : ℕ → E, ∀ n, Step p hs Γ (f n) (f (n + 1)) := by
  rintro ⟨f, h⟩
  have key : ∀ n, weight (f n) + n ≤ weight (f 0) := by
    intro n
    induction n with
    | zero => simp
    | succ n ih => have := step_weight (h n); omega
  have := key (weight (f 0) + 1)
  omega

/-- After the Decompose pass and then the hybrid pass, as they run in the compiler, no operator is left that has a
decomposition, and no list of an attribute is read beyond its end. -/
theorem C96_gone {hs : Bool} {Γ : ℕ → DT} {e e₁ e₂ : E} (hf : All Filled e) (h1 : Steps .decompose hs Γ e e₁)
    (n1 : ∀ e', ¬ Step .decompose hs Γ e₁ e') (h2 : Steps .hybrid hs Γ e₁ e₂) (n2 : ∀ e', ¬ Step .hybrid hs Γ e₂ e') :
    All (fun e => ¬ Composite hs e) e₂ ∧ All (fun e => rule (Pass.patterns .decompose hs) Γ e ≠ .crash) e₁ ∧
      All (fun e => rule (Pass.patterns .hybrid hs) Γ e ≠ .crash) e₂ :=
  ⟨both_leave hf h1 n1 h2 n2, All.mono (fun _ h => rule_ne_crash h) (steps_filled h1 hf),
    All.mono (fun _ h => rule_ne_crash h) (steps_filled h2 (steps_filled h1 hf))⟩

/-- Each pass alone: the Decompose pass leaves version 13 of ReduceLogSum, ReduceLogSumExp and ReduceSumSquare, the hybrid
pass leaves CastLike. -/
theorem C96_left {p : Pass} {hs : Bool} {Γ : ℕ → DT} {e e' : E} (hf : All Filled e) (h : Steps p hs Γ e e')
    (n : ∀ f, ¬ Step p hs Γ e' f) : All (fun e => Composite hs e → Leaves p e) e' :=
  stuck_leaves (steps_filled h hf) n

/-- Sum of any number of operands is a sequence of additions. -/
theorem C96_sum (ts : List (Tensor ℝ)) : sumToAdd ts = sumR ts := sumToAdd_eq ts

/-! ### Witnesses -/

/-- `ReduceLogSumExp(LogSoftmax(Scaler(x, [1], [2]), 0), axes = [0], keepdims = 0)`. -/
def exDec : E := .reduce .logSumExp (.logSoftmax (.scaler (.arg 0) (some [1]) (some [2])) 0) (some [0]) false false

/-- Integers. -/
def exDecΓ : ℕ → DT := fun _ => i64

/-- One number. -/
noncomputable def exDecEnv : ℕ → Tensor ℝ := fun _ => build [1] fun _ => 3

theorem exDec_ty : ty exDecΓ exDec = some f32 := by decide +kernel

theorem exDec_safe (hs : Bool) (env : ℕ → Tensor ℝ) : All (Safe hs exDecΓ env) exDec := by
  refine ⟨⟨fun _ d hd => ?_, fun _ => .inr (.inr (.inr ⟨0, [], rfl⟩))⟩, trivial, trivial, trivial⟩
  have : ty exDecΓ (.logSoftmax (.scaler (.arg 0) (some [1]) (some [2])) 0) = some f32 := by decide +kernel
  rw [this] at hd
  cases hd
  rfl

theorem exDec_filled : All Filled exDec := by simp [exDec, All, Filled]

example : ∃ t, eval exDecΓ exDecEnv exDec = some t := by
  have h1 : eval exDecΓ exDecEnv (.scaler (.arg 0) (some [1]) (some [2])) =
      some (build [1] fun idx => ((exDecEnv 0).get idx - scalerAt (some [1]) 0 idx) * scalerAt (some [2]) 1 idx) := by
    rw [eval, eval, Option.bind_some]
    unfold scalerR
    rw [if_pos ⟨by simp [exDecEnv], fun v hv => by cases hv; simp, fun v hv => by cases hv; simp⟩]
    rfl
  have h2 : ∃ x, eval exDecΓ exDecEnv (.logSoftmax (.scaler (.arg 0) (some [1]) (some [2])) 0) = some x ∧ x.shape = [1] := by
    rw [eval, h1, Option.bind_some]
    exact ⟨_, rfl, rfl⟩
  obtain ⟨x, hx, hs⟩ := h2
  refine ⟨reduceWith (redR .logSumExp) x [0] false, ?_⟩
  rw [exDec, eval, hx, Option.bind_some]
  refine reduceR_of (r := .logSumExp) (R := [0]) (by rw [hs]; decide +kernel) ?_
  rw [hs]
  intro idx hidx
  show reduced x [0] false idx ≠ []
  unfold reduced
  rw [hs]
  rw [Ne, List.map_eq_nil_iff]
  have : idx = [] := by
    have h : allIndices (project [0] false 1 [1]) = [[]] := by decide +kernel
    replace hidx := mem_allIndices.2 hidx
    rw [h] at hidx
    simpa using hidx
  subst this
  decide +kernel

/-- It is rewritten to the end: there is a graph that the Decompose pass rewrites it to and leaves as it is. -/
example (p : Pass) (hs : Bool) : ∃ e', Steps p hs exDecΓ exDec e' ∧ e' ≠ exDec ∧ ∀ f, ¬ Step p hs exDecΓ e' f := by
  have key : ∀ n e, weight e ≤ n → ∃ e', Steps p hs exDecΓ e e' ∧ ∀ f, ¬ Step p hs exDecΓ e' f := by
    intro n
    induction n with
    | zero =>
      intro e hw
      refine ⟨e, .refl, fun f hf => ?_⟩
      have := step_weight hf
      omega
    | succ n ih =>
      intro e hw
      by_cases h : ∃ f, Step p hs exDecΓ e f
      · obtain ⟨f, hf⟩ := h
        have := step_weight hf
        obtain ⟨e', h1, h2⟩ := ih f (by omega)
        exact ⟨e', .head hf h1, h2⟩
      · exact ⟨e, .refl, fun f hf => h ⟨f, hf⟩⟩
  obtain ⟨e', h1, h2⟩ := key _ exDec (le_refl _)
  refine ⟨e', h1, ?_, h2⟩
  rintro rfl
  exact h2 _ (Step.root (by cases p <;> rfl) rfl)

/-! ### What the patterns rely on -/

/-- ReduceLogSumExp of `[[3]]` over all axes, written as an empty list of axes, without keeping them. -/
def exDecNoAxes : E := .reduce .logSumExp (.arg 0) (some []) false false

/-- Without `SqueezeFits` the shape of the result changes: the empty list of axes stands for all axes in ReduceMax, but
for none in Squeeze. -/
theorem C96_squeeze_false : ∃ (env : ℕ → Tensor ℝ) (e' : E) (t t' : Tensor ℝ),
    eval (fun _ => f32) env exDecNoAxes = some t ∧ t.shape = [] ∧ Step .decompose false (fun _ => f32) exDecNoAxes e' ∧
      eval (fun _ => f32) env e' = some t' ∧ t'.shape = [1, 1] := by
  let x : Tensor ℝ := build [1, 1] fun _ => 3
  have hR : redAxes x.shape.length (some []) false = some [0, 1] := by decide +kernel
  have hx : x.shape = [1, 1] := rfl
  have hred : ∀ (y : Tensor ℝ) (keep : Bool), y.shape = [1, 1] →
      ∀ idx, InBounds (project [0, 1] keep 1 y.shape) idx → reduced y [0, 1] keep idx = [y.get [0, 0]] := by
    intro y keep hy idx hidx
    unfold reduced
    rw [hy] at *
    cases keep with
    | true =>
      have h : allIndices (project [0, 1] true 1 [1, 1]) = [[0, 0]] := by decide +kernel
      replace hidx := mem_allIndices.2 hidx
      rw [h] at hidx
      rw [List.mem_singleton.1 hidx]
      rfl
    | false =>
      have h : allIndices (project [0, 1] false 1 [1, 1]) = [[]] := by decide +kernel
      replace hidx := mem_allIndices.2 hidx
      rw [h] at hidx
      rw [List.mem_singleton.1 hidx]
      rfl
  have hlse : reduceR .logSumExp x (some []) false false = some (reduceWith (redR .logSumExp) x [0, 1] false) :=
    reduceR_of hR (fun idx hidx => by rw [hred x false hx idx hidx]; simp [RedDef])
  have hmax : reduceR .max x (some []) true false = some (reduceWith (redR .max) x [0, 1] true) :=
    reduceR_of hR (fun idx hidx => by rw [hred x true hx idx hidx]; simp [RedDef])
  have hms : (reduceWith (redR .max) x [0, 1] true).shape = [1, 1] := rfl
  have hsub : ∃ y, binary (biR .sub) x (reduceWith (redR .max) x [0, 1] true) = some y ∧ y.shape = [1, 1] := by
    rw [binary_same hx hms]
    exact ⟨_, rfl, rfl⟩
  obtain ⟨y, hy, hys⟩ := hsub
  have hexp : unaryR .exp y = some (y.map (unR .exp)) := unaryR_total (u := .exp) (fun _ => trivial) _
  have hes : (y.map (unR .exp)).shape = [1, 1] := hys
  have hlog : reduceR .logSum (y.map (unR .exp)) (some []) false false =
      some (reduceWith (redR .logSum) (y.map (unR .exp)) [0, 1] false) := by
    refine reduceR_of (r := .logSum) (by rw [hes]; decide +kernel) (fun idx hidx => ?_)
    rw [hred _ false hes idx hidx]
    show 0 < List.sum [_]
    rw [List.sum_singleton, get_map _ _ (by rw [hys]; decide +kernel)]
    exact Real.exp_pos _
  have hls : (reduceWith (redR .logSum) (y.map (unR .exp)) [0, 1] false).shape = [] := by
    show project [0, 1] false 1 (y.map (unR .exp)).shape = []
    rw [hes]; decide +kernel
  have hsq : ∃ z, Rewrite.squeeze (reduceWith (redR .max) x [0, 1] true) (some []) = some z ∧ z.shape = [1, 1] := by
    exact ⟨_, rfl, rfl⟩
  obtain ⟨z, hz, hzs⟩ := hsq
  have hadd : ∃ t', binary (biR .add) (reduceWith (redR .logSum) (y.map (unR .exp)) [0, 1] false) z = some t' ∧
      t'.shape = [1, 1] := by
    unfold binary
    rw [hls, hzs]
    exact ⟨_, rfl, rfl⟩
  obtain ⟨t', ht', hts⟩ := hadd
  refine ⟨fun _ => x, _, reduceWith (redR .logSumExp) x [0, 1] false, t',
    by rw [exDecNoAxes, eval, eval, Option.bind_some, hlse], rfl, Step.root rfl rfl, ?_, hts⟩
  simp only [eval, Option.bind_some, hmax, hy, hexp, hlog, hz, ht']

/-- ReduceL2 of integers is rewritten to a graph that is not accepted: Sqrt does not take integers. -/
theorem C96_integers_false : ∃ e e' : E, ty (fun _ => i64) e = some i64 ∧ Step .decompose false (fun _ => i64) e e' ∧
    ty (fun _ => i64) e' = none :=
  ⟨.reduce .l2 (.arg 0) none true false, _, by decide +kernel, Step.root rfl rfl, by decide +kernel⟩

/-- HardSwish of double precision is rewritten to a product of different types, which is not accepted. -/
theorem C96_hardswish_type_false : ∃ e e' : E, ty (fun _ => ⟨.float, 64⟩) e = some ⟨.float, 64⟩ ∧
    Step .decompose true (fun _ => ⟨.float, 64⟩) e e' ∧ ty (fun _ => ⟨.float, 64⟩) e' = none :=
  ⟨.hardSwish (.arg 0), _, by decide +kernel, Step.root rfl rfl, by decide +kernel⟩

/-- HardSwish of a number becomes a tensor with one axis. -/
theorem C96_hardswish_rank_false : ∃ (e e' : E) (env : ℕ → Tensor ℝ) (t t' : Tensor ℝ),
    eval (fun _ => f32) env e = some t ∧ t.shape = [] ∧ Step .decompose true (fun _ => f32) e e' ∧
      eval (fun _ => f32) env e' = some t' ∧ t'.shape = [1] := by
  refine ⟨.hardSwish (.arg 0), _, fun _ => build [] fun _ => 1, _, ?_, rfl, rfl, Step.root rfl rfl, ?_, ?_⟩
  · exact (build [1] fun _ => biR .mul 1 (biR .max (biR .min (biR .add (biR .mul 1 (1 / 6)) (1 / 2)) 1) 0))
  · rfl
  · rfl

/-- Clip version 6 of double precision. -/
theorem C96_clip_false : ∃ e e' : E, ty (fun _ => ⟨.float, 64⟩) e = some ⟨.float, 64⟩ ∧
    Step .decompose false (fun _ => ⟨.float, 64⟩) e e' ∧ ty (fun _ => ⟨.float, 64⟩) e' = none := by
  refine ⟨.clipV6 (.arg 0) 6 0, _, by simp [ty, only, isFloat], Step.root rfl rfl, ?_⟩
  simp [ty, only, isNum, boundTy, scalarF32, f32]

/-- An empty list in an attribute: Squeeze version 11 of no axes. -/
theorem C96_empty_false : ∃ e : E, ty (fun _ => f32) e = some f32 ∧
    rule (Pass.patterns .decompose false) (fun _ => f32) e = .crash :=
  ⟨.squeezeV11 (.arg 0) (some []), rfl, rfl⟩

/-- HardSwish and Clip where the conditions hold. -/
example : All (Safe true (fun _ => f32) fun _ => build [2] fun _ => 1) (.hardSwish (.clipV6 (.arg 0) 6 0)) := by
  refine ⟨fun _ => ⟨fun d hd => ?_, fun t ht => ?_⟩, fun d hd => (Option.some.inj hd).symm, trivial⟩
  · simp only [ty, only] at hd
    simp at hd
    exact hd.1.symm
  · simp only [eval, Option.map_some] at ht
    cases ht
    simp

/-- A Sum of three operands of different shapes. -/
example : (sumR [build [2, 1] fun _ => 1, build [] fun _ => 2, build [3] fun _ => 3]).map Tensor.shape = some [2, 3] := by
  rfl

end Verif.Props
