import Verif.Decompose.Steps

/-! # The rewriting ends, and what is left -/

namespace Verif.Decompose

open Verif.Rewrite Verif.Einsum

variable {p : Pass} {hs : Bool} {Γ : ℕ → DT} {env : ℕ → Tensor ℝ}

/-- The weight of a reduction of an operand of weight `n`. -/
def wRed : Red → ℕ → ℕ
  | .sum, n => n + 1
  | .max, n => n + 1
  | .min, n => n + 1
  | .l1, n => n + 3
  | .logSum, n => n + 3
  | .sumSquare, n => 2 * n + 3
  | .l2, n => 2 * n + 5
  | .logSumExp, n => 3 * n + 20

/-- A weight that every rewrite decreases. -/
def weight : E → ℕ
  | .arg _ => 1
  | .none => 1
  | .cst _ _ => 1
  | .un _ e => weight e + 1
  | .bi _ e f => weight e + weight f + 1
  | .reduce r e _ _ _ => wRed r (weight e)
  | .reduceV18 _ e _ _ _ => weight e + 2
  | .reduceV13 r e _ _ => wRed r (weight e) + 1
  | .squeeze e _ => weight e + 1
  | .squeezeV11 e _ => weight e + 2
  | .unsqueeze e _ => weight e + 1
  | .unsqueezeV11 e _ => weight e + 2
  | .softmax e _ => weight e + 1
  | .logSoftmax e _ => weight e + 3
  | .scaler e _ _ => weight e + 10
  | .hardSwish e => 2 * weight e + 20
  | .clip .v11 e l h => weight e + weight l + weight h + 3
  | .clip .v12 e l h => weight e + weight l + weight h + 2
  | .clip .v13 e l h => weight e + weight l + weight h + 1
  | .clipV6 e _ _ => weight e + 10
  | .castLike e f => weight e + weight f + 2
  | .expand e _ => weight e + 1
  | .constantOfShape _ _ => 10

theorem wRed_lt {r : Red} {m n : ℕ} (h : m < n) : wRed r m < wRed r n := by
  cases r <;> simp only [wRed] <;> omega

theorem scalerData_weight (e : E) : weight (scalerData Γ e) ≤ weight e + 1 := by
  unfold scalerData
  split
  · omega
  · simp only [weight]; omega

theorem rule_weight {P : Patterns} {e e' : E} (h : rule P Γ e = .into e') : weight e' < weight e := by
  cases e with
  | reduce r e axes keep noop =>
    change ruleReduce r e axes keep noop = _ at h
    unfold ruleReduce at h
    cases r with
    | logSumExp => cases keep <;> cases h <;> simp only [weight, wRed] <;> omega
    | _ => first | (cases h; done) | (cases h; simp only [weight, wRed]; omega)
  | reduceV13 r e axes keep =>
    change ruleReduceV13 r e axes keep = _ at h
    unfold ruleReduceV13 at h
    have : weight e' = wRed r (weight e) := by
      cases r <;> cases axes <;> first | (cases h; done) | (cases h; rfl) |
        (obtain ⟨m, hm, rfl⟩ := Option.map_eq_some_iff.1 (of_into h); rfl)
    rw [this]
    simp only [weight]
    omega
  | reduceV18 isMax e axes keep noop =>
    cases h
    cases isMax <;> simp [weight, wRed]
  | squeezeV11 e axes =>
    cases axes with
    | none => cases h; simp [weight]
    | some l =>
      obtain ⟨m, hm, rfl⟩ := Option.map_eq_some_iff.1 (of_into h)
      simp [weight]
  | unsqueezeV11 e axes =>
    obtain ⟨m, hm, rfl⟩ := Option.map_eq_some_iff.1 (of_into h)
    simp [weight]
  | scaler e off scale =>
    have hw := scalerData_weight (Γ := Γ) e
    change ruleScaler Γ e off scale = _ at h
    unfold ruleScaler at h
    cases off with
    | none =>
      cases scale with
      | none => cases h; simp only [weight]; omega
      | some s =>
        obtain ⟨c, hc', rfl⟩ := Option.map_eq_some_iff.1 (of_into h)
        obtain ⟨rfl, hl⟩ := denseFloats_some hc'
        simp only [weight]; omega
    | some o =>
      cases scale with
      | none =>
        obtain ⟨c, hc', rfl⟩ := Option.map_eq_some_iff.1 (of_into h)
        obtain ⟨rfl, hl⟩ := denseFloats_some hc'
        simp only [weight]; omega
      | some s =>
        obtain ⟨c, hc', h'⟩ := bind_ex (of_into h)
        obtain ⟨c2, hc2, rfl⟩ := Option.map_eq_some_iff.1 h'
        obtain ⟨rfl, hl⟩ := denseFloats_some hc'
        obtain ⟨rfl, hl2⟩ := denseFloats_some hc2
        simp only [weight]; omega
  | logSoftmax e axis => cases h; simp only [weight]; omega
  | hardSwish e =>
    change (if P.hardSwish = true then _ else _) = _ at h
    split at h
    · cases h; simp only [weight, ruleHardSwish, constantFloat32]; omega
    · cases h
  | clipV6 e mx mn => cases h; simp only [weight, scalarF32]; omega
  | clip v e lo hi =>
    cases v with
    | v11 => cases h; simp only [weight]; omega
    | v12 => cases h; simp only [weight]; omega
    | v13 => cases h
  | castLike e f =>
    change (if P.castLike = true then _ else _) = _ at h
    split at h
    · cases h; simp only [weight]; omega
    · cases h
  | constantOfShape s v => cases h; simp only [weight]; omega
  | _ => cases h

theorem step_weight {e e' : E} (h : Step p hs Γ e e') : weight e' < weight e := by
  induction h with
  | root _ h => exact rule_weight h
  | reduce _ ih => exact wRed_lt ih
  | reduceV13 _ ih => simp only [weight]; have := wRed_lt (r := ‹Red›) ih; omega
  | @clipx v _ _ _ _ _ ih => cases v <;> simp only [weight] <;> omega
  | @clipl v _ _ _ _ _ ih => cases v <;> simp only [weight] <;> omega
  | @cliph v _ _ _ _ _ ih => cases v <;> simp only [weight] <;> omega
  | _ => simp only [weight]; omega

/-- There is no infinite sequence of rewrites. -/
theorem step_wf : WellFounded fun e' e : E => Step p hs Γ e e' :=
  Subrelation.wf (fun h => step_weight h) (InvImage.wf weight Nat.lt_wfRel.wf)

/-- No rewrite applies. -/
def Stuck (p : Pass) (hs : Bool) (Γ : ℕ → DT) (e : E) : Prop := ∀ e', ¬ Step p hs Γ e e'

theorem stuck_all {e : E} (h : Stuck p hs Γ e) : All (Stuck p hs Γ) e := by
  induction e with
  | arg k => exact h
  | none => exact h
  | cst d t => exact h
  | constantOfShape s v => exact h
  | un u e ih => exact ⟨h, ih fun _ hs => h _ hs.un⟩
  | bi b e f ih1 ih2 => exact ⟨h, ih1 fun _ hs => h _ hs.bil, ih2 fun _ hs => h _ hs.bir⟩
  | reduce r e a k n ih => exact ⟨h, ih fun _ hs => h _ hs.reduce⟩
  | reduceV18 r e a k n ih => exact ⟨h, ih fun _ hs => h _ hs.reduceV18⟩
  | reduceV13 r e a k ih => exact ⟨h, ih fun _ hs => h _ hs.reduceV13⟩
  | squeeze e a ih => exact ⟨h, ih fun _ hs => h _ hs.squeeze⟩
  | squeezeV11 e a ih => exact ⟨h, ih fun _ hs => h _ hs.squeezeV11⟩
  | unsqueeze e a ih => exact ⟨h, ih fun _ hs => h _ hs.unsqueeze⟩
  | unsqueezeV11 e a ih => exact ⟨h, ih fun _ hs => h _ hs.unsqueezeV11⟩
  | softmax e a ih => exact ⟨h, ih fun _ hs => h _ hs.softmax⟩
  | logSoftmax e a ih => exact ⟨h, ih fun _ hs => h _ hs.logSoftmax⟩
  | scaler e o s ih => exact ⟨h, ih fun _ hs => h _ hs.scaler⟩
  | hardSwish e ih => exact ⟨h, ih fun _ hs => h _ hs.hardSwish⟩
  | clip v e l u ih1 ih2 ih3 =>
    exact ⟨h, ih1 fun _ hs => h _ hs.clipx, ih2 fun _ hs => h _ hs.clipl, ih3 fun _ hs => h _ hs.cliph⟩
  | clipV6 e a b ih => exact ⟨h, ih fun _ hs => h _ hs.clipV6⟩
  | castLike e f ih1 ih2 => exact ⟨h, ih1 fun _ hs => h _ hs.castLikel, ih2 fun _ hs => h _ hs.castLiker⟩
  | expand e s ih => exact ⟨h, ih fun _ hs => h _ hs.expand⟩

/-- No list in an attribute is empty. -/
def Filled : E → Prop
  | .reduceV13 _ _ axes _ => axes ≠ some []
  | .squeezeV11 _ axes => axes ≠ some []
  | .unsqueezeV11 _ axes => axes ≠ []
  | .scaler _ o s => o ≠ some [] ∧ s ≠ some []
  | _ => True

theorem rule_ne_crash {P : Patterns} {e : E} (h : Filled e) : rule P Γ e ≠ .crash := by
  cases e with
  | reduce r e axes keep noop =>
    change ruleReduce r e axes keep noop ≠ _
    unfold ruleReduce
    cases r <;> cases keep <;> intro h <;> cases h
  | reduceV13 r e axes keep =>
    change ruleReduceV13 r e axes keep ≠ _
    unfold ruleReduceV13
    cases axes with
    | none => cases r <;> intro h <;> cases h
    | some l =>
      have : l ≠ [] := fun h' => h (by rw [h'])
      simp only [denseInts, if_neg this]
      cases r <;> intro h <;> cases h
  | squeezeV11 e axes =>
    cases axes with
    | none => intro h; cases h
    | some l =>
      have : l ≠ [] := fun h' => h (by rw [h'])
      simp only [rule, denseInts, if_neg this]
      intro h; cases h
  | unsqueezeV11 e axes =>
    have : axes ≠ [] := h
    simp only [rule, denseInts, if_neg this]
    intro h; cases h
  | scaler e off scale =>
    obtain ⟨h1, h2⟩ := h
    cases off with
    | none =>
      cases scale with
      | none => intro h; cases h
      | some l =>
        have : l ≠ [] := fun h' => h2 (by rw [h'])
        simp only [rule, ruleScaler, denseFloats, if_neg this]
        intro h; cases h
    | some o =>
      have ho : o ≠ [] := fun h' => h1 (by rw [h'])
      cases scale with
      | none =>
        simp only [rule, ruleScaler, denseFloats, if_neg ho]
        intro h; cases h
      | some l =>
        have : l ≠ [] := fun h' => h2 (by rw [h'])
        simp only [rule, ruleScaler, denseFloats, if_neg this, if_neg ho]
        intro h; cases h
  | hardSwish e =>
    change (if P.hardSwish = true then _ else _) ≠ _
    split <;> intro h <;> cases h
  | castLike e f =>
    change (if P.castLike = true then _ else _) ≠ _
    split <;> intro h <;> cases h
  | clip v e l u => cases v <;> intro h <;> cases h
  | _ => intro h; cases h

theorem scalerData_filled {e : E} (h : All Filled e) : All Filled (scalerData Γ e) := by
  unfold scalerData
  split
  · exact h
  · exact ⟨trivial, h⟩

theorem rule_filled {P : Patterns} {e e' : E} (hf : All Filled e) (h : rule P Γ e = .into e') : All Filled e' := by
  cases e with
  | reduce r e axes keep noop =>
    have hc := hf.2
    change ruleReduce r e axes keep noop = _ at h
    unfold ruleReduce at h
    cases r with
    | logSumExp => cases keep <;> cases h <;> simp [All, Filled, hc]
    | _ => first | (cases h; done) | (cases h; simp [All, Filled, hc])
  | reduceV13 r e axes keep =>
    have hc := hf.2
    change ruleReduceV13 r e axes keep = _ at h
    unfold ruleReduceV13 at h
    cases r <;> cases axes <;> first | (cases h; done) | (cases h; exact ⟨trivial, hc⟩) |
      (obtain ⟨m, hm, rfl⟩ := Option.map_eq_some_iff.1 (of_into h); exact ⟨trivial, hc⟩)
  | reduceV18 isMax e axes keep noop =>
    cases h
    exact ⟨trivial, hf.2⟩
  | squeezeV11 e axes =>
    cases axes with
    | none => cases h; exact ⟨trivial, hf.2⟩
    | some l =>
      obtain ⟨m, hm, rfl⟩ := Option.map_eq_some_iff.1 (of_into h)
      exact ⟨trivial, hf.2⟩
  | unsqueezeV11 e axes =>
    obtain ⟨m, hm, rfl⟩ := Option.map_eq_some_iff.1 (of_into h)
    exact ⟨trivial, hf.2⟩
  | scaler e off scale =>
    have hw := scalerData_filled (Γ := Γ) hf.2
    change ruleScaler Γ e off scale = _ at h
    unfold ruleScaler at h
    cases off with
    | none =>
      cases scale with
      | none => cases h; exact hw
      | some s =>
        obtain ⟨c, hc', rfl⟩ := Option.map_eq_some_iff.1 (of_into h)
        obtain ⟨rfl, hl⟩ := denseFloats_some hc'
        exact ⟨trivial, hw, trivial⟩
    | some o =>
      cases scale with
      | none =>
        obtain ⟨c, hc', rfl⟩ := Option.map_eq_some_iff.1 (of_into h)
        obtain ⟨rfl, hl⟩ := denseFloats_some hc'
        exact ⟨trivial, hw, trivial⟩
      | some s =>
        obtain ⟨c, hc', h'⟩ := bind_ex (of_into h)
        obtain ⟨c2, hc2, rfl⟩ := Option.map_eq_some_iff.1 h'
        obtain ⟨rfl, hl⟩ := denseFloats_some hc'
        obtain ⟨rfl, hl2⟩ := denseFloats_some hc2
        exact ⟨trivial, ⟨trivial, hw, trivial⟩, trivial⟩
  | logSoftmax e axis => cases h; exact ⟨trivial, trivial, hf.2⟩
  | hardSwish e =>
    have hc := hf.2
    change (if P.hardSwish = true then _ else _) = _ at h
    split at h
    · cases h; simp [All, Filled, ruleHardSwish, constantFloat32, hc]
    · cases h
  | clipV6 e mx mn => cases h; exact ⟨trivial, hf.2, trivial, trivial⟩
  | clip v e lo hi =>
    cases v with
    | v11 => cases h; exact hf
    | v12 => cases h; exact hf
    | v13 => cases h
  | castLike e f =>
    change (if P.castLike = true then _ else _) = _ at h
    split at h
    · cases h; exact ⟨trivial, hf.2.1⟩
    · cases h
  | constantOfShape s v => cases h; exact ⟨trivial, trivial⟩
  | _ => cases h

theorem step_filled {e e' : E} (h : Step p hs Γ e e') (hf : All Filled e) : All Filled e' := by
  induction h with
  | root _ h => exact rule_filled hf h
  | bil _ ih => exact ⟨hf.1, ih hf.2.1, hf.2.2⟩
  | bir _ ih => exact ⟨hf.1, hf.2.1, ih hf.2.2⟩
  | clipx _ ih => exact ⟨hf.1, ih hf.2.1, hf.2.2⟩
  | clipl _ ih => exact ⟨hf.1, hf.2.1, ih hf.2.2.1, hf.2.2.2⟩
  | cliph _ ih => exact ⟨hf.1, hf.2.1, hf.2.2.1, ih hf.2.2.2⟩
  | castLikel _ ih => exact ⟨hf.1, ih hf.2.1, hf.2.2⟩
  | castLiker _ ih => exact ⟨hf.1, hf.2.1, ih hf.2.2⟩
  | _ => rename_i ih; exact ⟨hf.1, ih hf.2⟩

theorem steps_filled {e e' : E} (h : Steps p hs Γ e e') (hf : All Filled e) : All Filled e' := by
  induction h with
  | refl => exact hf
  | tail _ hst ih => exact step_filled hst ih

/-- The operators that are taken apart: those that the ONNX definition composes of others, and old versions. -/
inductive Composite (hs : Bool) : E → Prop
  | l1 {e a k n} : Composite hs (.reduce .l1 e a k n)
  | l2 {e a k n} : Composite hs (.reduce .l2 e a k n)
  | logSum {e a k n} : Composite hs (.reduce .logSum e a k n)
  | logSumExp {e a k n} : Composite hs (.reduce .logSumExp e a k n)
  | sumSquare {e a k n} : Composite hs (.reduce .sumSquare e a k n)
  | reduceV18 {b e a k n} : Composite hs (.reduceV18 b e a k n)
  | l1V13 {e a k} : Composite hs (.reduceV13 .l1 e a k)
  | l2V13 {e a k} : Composite hs (.reduceV13 .l2 e a k)
  | logSumV13 {e a k} : Composite hs (.reduceV13 .logSum e a k)
  | logSumExpV13 {e a k} : Composite hs (.reduceV13 .logSumExp e a k)
  | sumSquareV13 {e a k} : Composite hs (.reduceV13 .sumSquare e a k)
  | squeezeV11 {e a} : Composite hs (.squeezeV11 e a)
  | unsqueezeV11 {e a} : Composite hs (.unsqueezeV11 e a)
  | logSoftmax {e a} : Composite hs (.logSoftmax e a)
  | scaler {e o s} : Composite hs (.scaler e o s)
  | hardSwish {e} : hs = true → Composite hs (.hardSwish e)
  | clipV6 {e a b} : Composite hs (.clipV6 e a b)
  | clipV11 {e l h} : Composite hs (.clip .v11 e l h)
  | clipV12 {e l h} : Composite hs (.clip .v12 e l h)
  | castLike {e f} : Composite hs (.castLike e f)
  | constantOfShape {s v} : Composite hs (.constantOfShape s v)

/-- CastLike. -/
def IsCastLike (e : E) : Prop := ∃ a b, e = .castLike a b

/-- Version 13 of ReduceLogSum, ReduceLogSumExp and ReduceSumSquare. -/
def IsLogV13 (e : E) : Prop :=
  ∃ r a l k, e = .reduceV13 r a l k ∧ (r = .logSum ∨ r = .logSumExp ∨ r = .sumSquare)

theorem rule_fail {e : E} (h : rule (p.patterns hs) Γ e = .fail) (hc : Composite hs e) :
    p = .hybrid ∧ IsCastLike e := by
  have ofn : ∀ o : Option E, Outcome.of o ≠ .fail := fun o => by cases o <;> intro h <;> cases h
  cases hc with
  | logSumExp => rename_i k _; cases k <;> cases h
  | hardSwish hh =>
    subst hh
    cases p <;> cases h
  | castLike =>
    cases p with
    | decompose => cases h
    | hybrid => exact ⟨rfl, _, _, rfl⟩
  | squeezeV11 =>
    rename_i a
    cases a with
    | none => cases h
    | some l => exact absurd h (ofn _)
  | unsqueezeV11 => exact absurd h (ofn _)
  | scaler =>
    rename_i o s
    cases o <;> cases s <;> first | (cases h; done) | exact absurd h (ofn _)
  | l1V13 => rename_i a _; cases a <;> first | (cases h; done) | exact absurd h (ofn _)
  | l2V13 => rename_i a _; cases a <;> first | (cases h; done) | exact absurd h (ofn _)
  | logSumV13 => rename_i a _; cases a <;> first | (cases h; done) | exact absurd h (ofn _)
  | logSumExpV13 => rename_i a _; cases a <;> first | (cases h; done) | exact absurd h (ofn _)
  | sumSquareV13 => rename_i a _; cases a <;> first | (cases h; done) | exact absurd h (ofn _)
  | _ => cases h

theorem looks_composite {e : E} (hc : Composite hs e) (hl : p.looks hs e = false) : p = .decompose ∧ IsLogV13 e := by
  cases p with
  | hybrid => cases hl
  | decompose =>
    refine ⟨rfl, ?_⟩
    cases hc with
    | logSumV13 => exact ⟨_, _, _, _, rfl, .inl rfl⟩
    | logSumExpV13 => exact ⟨_, _, _, _, rfl, .inr (.inl rfl)⟩
    | sumSquareV13 => exact ⟨_, _, _, _, rfl, .inr (.inr rfl)⟩
    | hardSwish hh => subst hh; cases hl
    | _ => cases hl

/-- What a pass leaves. -/
def Leaves : Pass → E → Prop
  | .decompose => IsLogV13
  | .hybrid => IsCastLike

theorem stuck_leaves {e : E} (hf : All Filled e) (h : Stuck p hs Γ e) :
    All (fun e => Composite hs e → Leaves p e) e := by
  have h1 : All (fun e => Filled e ∧ Stuck p hs Γ e) e := by
    have h2 := stuck_all h
    clear h
    induction e <;> simp only [All] at * <;> grind
  refine All.mono (fun e ⟨h2, h3⟩ hc => ?_) h1
  by_cases hl : p.looks hs e = true
  · rcases hr : rule (p.patterns hs) Γ e with _ | e' | _
    · obtain ⟨rfl, h4⟩ := rule_fail hr hc
      exact h4
    · exact absurd (Step.root hl hr) (h3 e')
    · exact absurd hr (rule_ne_crash h2)
  · obtain ⟨rfl, h4⟩ := looks_composite hc (by simpa using hl)
    exact h4

/-! ### No rewrite of the hybrid pass introduces CastLike -/

/-- No CastLike. -/
def NoCastLike (e : E) : Prop := ¬ IsCastLike e

theorem rule_noCastLike {P : Patterns} {e e' : E} (hf : All NoCastLike e) (h : rule P Γ e = .into e') :
    All NoCastLike e' := by
  have key : ∀ e, (∀ a b, e ≠ .castLike a b) → NoCastLike e := fun e h => by rintro ⟨a, b, h'⟩; exact h a b h'
  have hsd : ∀ e, All NoCastLike e → All NoCastLike (scalerData Γ e) := by
    intro e he
    unfold scalerData
    split
    · exact he
    · exact ⟨key _ (by simp), he⟩
  cases e with
  | reduce r e axes keep noop =>
    have hc := hf.2
    change ruleReduce r e axes keep noop = _ at h
    unfold ruleReduce at h
    cases r with
    | logSumExp => cases keep <;> cases h <;> simp [All, NoCastLike, IsCastLike, hc]
    | _ => first | (cases h; done) | (cases h; simp [All, NoCastLike, IsCastLike, hc])
  | reduceV13 r e axes keep =>
    have hc := hf.2
    change ruleReduceV13 r e axes keep = _ at h
    unfold ruleReduceV13 at h
    cases r <;> cases axes <;> first | (cases h; done) | (cases h; exact ⟨key _ (by simp), hc⟩) |
      (obtain ⟨m, hm, rfl⟩ := Option.map_eq_some_iff.1 (of_into h); exact ⟨key _ (by simp), hc⟩)
  | reduceV18 isMax e axes keep noop => cases h; exact ⟨key _ (by simp), hf.2⟩
  | squeezeV11 e axes =>
    cases axes with
    | none => cases h; exact ⟨key _ (by simp), hf.2⟩
    | some l =>
      obtain ⟨m, hm, rfl⟩ := Option.map_eq_some_iff.1 (of_into h)
      exact ⟨key _ (by simp), hf.2⟩
  | unsqueezeV11 e axes =>
    obtain ⟨m, hm, rfl⟩ := Option.map_eq_some_iff.1 (of_into h)
    exact ⟨key _ (by simp), hf.2⟩
  | scaler e off scale =>
    have hw := hsd e hf.2
    change ruleScaler Γ e off scale = _ at h
    unfold ruleScaler at h
    cases off with
    | none =>
      cases scale with
      | none => cases h; exact hw
      | some s =>
        obtain ⟨c, hc', rfl⟩ := Option.map_eq_some_iff.1 (of_into h)
        obtain ⟨rfl, hl⟩ := denseFloats_some hc'
        exact ⟨key _ (by simp), hw, key _ (by simp)⟩
    | some o =>
      cases scale with
      | none =>
        obtain ⟨c, hc', rfl⟩ := Option.map_eq_some_iff.1 (of_into h)
        obtain ⟨rfl, hl⟩ := denseFloats_some hc'
        exact ⟨key _ (by simp), hw, key _ (by simp)⟩
      | some s =>
        obtain ⟨c, hc', h'⟩ := bind_ex (of_into h)
        obtain ⟨c2, hc2, rfl⟩ := Option.map_eq_some_iff.1 h'
        obtain ⟨rfl, hl⟩ := denseFloats_some hc'
        obtain ⟨rfl, hl2⟩ := denseFloats_some hc2
        exact ⟨key _ (by simp), ⟨key _ (by simp), hw, key _ (by simp)⟩, key _ (by simp)⟩
  | logSoftmax e axis => cases h; exact ⟨key _ (by simp), key _ (by simp), hf.2⟩
  | hardSwish e =>
    have hc := hf.2
    change (if P.hardSwish = true then _ else _) = _ at h
    split at h
    · cases h; simp [All, NoCastLike, IsCastLike, ruleHardSwish, constantFloat32, hc]
    · cases h
  | clipV6 e mx mn =>
    cases h; exact ⟨key _ (by simp), hf.2, key _ (by simp), key _ (by simp)⟩
  | clip v e lo hi =>
    cases v with
    | v11 => cases h; exact ⟨key _ (by simp), hf.2⟩
    | v12 => cases h; exact ⟨key _ (by simp), hf.2⟩
    | v13 => cases h
  | castLike e f => exact absurd ⟨_, _, rfl⟩ hf.1
  | constantOfShape s v => cases h; exact ⟨key _ (by simp), key _ (by simp)⟩
  | _ => cases h

theorem step_noCastLike {e e' : E} (h : Step p hs Γ e e') (hf : All NoCastLike e) : All NoCastLike e' := by
  have key : ∀ e, (∀ a b, e ≠ .castLike a b) → NoCastLike e := fun e h => by rintro ⟨a, b, h'⟩; exact h a b h'
  induction h with
  | root _ h => exact rule_noCastLike hf h
  | bil _ ih => exact ⟨key _ (by simp), ih hf.2.1, hf.2.2⟩
  | bir _ ih => exact ⟨key _ (by simp), hf.2.1, ih hf.2.2⟩
  | clipx _ ih => exact ⟨key _ (by simp), ih hf.2.1, hf.2.2⟩
  | clipl _ ih => exact ⟨key _ (by simp), hf.2.1, ih hf.2.2.1, hf.2.2.2⟩
  | cliph _ ih => exact ⟨key _ (by simp), hf.2.1, hf.2.2.1, ih hf.2.2.2⟩
  | castLikel _ ih => exact absurd ⟨_, _, rfl⟩ hf.1
  | castLiker _ ih => exact absurd ⟨_, _, rfl⟩ hf.1
  | _ => rename_i ih; exact ⟨key _ (by simp), ih hf.2⟩

theorem steps_noCastLike {e e' : E} (h : Steps p hs Γ e e') (hf : All NoCastLike e) : All NoCastLike e' := by
  induction h with
  | refl => exact hf
  | tail _ hst ih => exact step_noCastLike hst ih

theorem all_and {q r : E → Prop} {e : E} (h1 : All q e) (h2 : All r e) : All (fun e => q e ∧ r e) e := by
  induction e <;> simp only [All] at * <;> grind

/-- What the two passes leave, one after the other. -/
theorem both_leave {e e₁ e₂ : E} (hf : All Filled e) (h1 : Steps .decompose hs Γ e e₁)
    (n1 : Stuck .decompose hs Γ e₁) (h2 : Steps .hybrid hs Γ e₁ e₂) (n2 : Stuck .hybrid hs Γ e₂) :
    All (fun e => ¬ Composite hs e) e₂ := by
  have f1 := steps_filled h1 hf
  have l1 : All NoCastLike e₁ := All.mono (fun e h hc => by
    obtain ⟨a, b, rfl⟩ := hc
    obtain ⟨r, x, l, k, he, _⟩ := h .castLike
    cases he) (stuck_leaves f1 n1)
  refine All.mono (fun e h hc => ?_) (all_and (stuck_leaves (steps_filled h2 f1) n2) (steps_noCastLike h2 l1))
  exact h.2 (h.1 hc)

end Verif.Decompose
