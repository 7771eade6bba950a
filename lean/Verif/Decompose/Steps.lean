import Verif.Decompose.RuleLemmas

/-! # Rewriting anywhere in an expression -/

namespace Verif.Decompose

open Verif.Rewrite Verif.Einsum

/-- A property holds for an expression and all its parts. -/
def All (p : E → Prop) : E → Prop
  | .arg k => p (.arg k)
  | .none => p .none
  | .cst d t => p (.cst d t)
  | .un u e => p (.un u e) ∧ All p e
  | .bi b e f => p (.bi b e f) ∧ All p e ∧ All p f
  | .reduce r e a k n => p (.reduce r e a k n) ∧ All p e
  | .reduceV18 r e a k n => p (.reduceV18 r e a k n) ∧ All p e
  | .reduceV13 r e a k => p (.reduceV13 r e a k) ∧ All p e
  | .squeeze e a => p (.squeeze e a) ∧ All p e
  | .squeezeV11 e a => p (.squeezeV11 e a) ∧ All p e
  | .unsqueeze e a => p (.unsqueeze e a) ∧ All p e
  | .unsqueezeV11 e a => p (.unsqueezeV11 e a) ∧ All p e
  | .softmax e a => p (.softmax e a) ∧ All p e
  | .logSoftmax e a => p (.logSoftmax e a) ∧ All p e
  | .scaler e o s => p (.scaler e o s) ∧ All p e
  | .hardSwish e => p (.hardSwish e) ∧ All p e
  | .clip v e l h => p (.clip v e l h) ∧ All p e ∧ All p l ∧ All p h
  | .clipV6 e a b => p (.clipV6 e a b) ∧ All p e
  | .castLike e f => p (.castLike e f) ∧ All p e ∧ All p f
  | .expand e s => p (.expand e s) ∧ All p e
  | .constantOfShape s v => p (.constantOfShape s v)

theorem All.self {p : E → Prop} {e : E} (h : All p e) : p e := by
  cases e <;> first | exact h | exact h.1

theorem All.mono {p q : E → Prop} (h : ∀ e, p e → q e) : ∀ {e : E}, All p e → All q e := by
  intro e
  induction e <;> simp only [All] <;> grind

/-- The operand of a composite reduction is a floating-point tensor if the replacement takes a root or a logarithm. -/
def needsFloat : Red → Bool
  | .l2 => true
  | .logSum => true
  | .logSumExp => true
  | _ => false

/-- What the patterns rely on but do not check. -/
def Safe (hs : Bool) (Γ : ℕ → DT) (env : ℕ → Tensor ℝ) : E → Prop
  | .reduce r e axes keep noop => (needsFloat r = true → ∀ d, ty Γ e = some d → isFloat d = true) ∧
      (r = .logSumExp → SqueezeFits axes keep noop)
  | .reduceV13 r e _ _ => needsFloat r = true → ∀ d, ty Γ e = some d → isFloat d = true
  | .hardSwish e => hs = true → (∀ d, ty Γ e = some d → d = f32) ∧ ∀ t, eval Γ env e = some t → t.shape ≠ []
  | .clipV6 e _ _ => ∀ d, ty Γ e = some d → d = f32
  | _ => True

variable {p : Pass} {hs : Bool} {Γ : ℕ → DT} {env : ℕ → Tensor ℝ}

theorem only_some {q : DT → Bool} {o : Option DT} {d : DT} : only q o = some d ↔ o = some d ∧ q d = true := by
  unfold only
  exact Option.filter_eq_some_iff

theorem same_some {a b : Option DT} {d : DT} : same a b = some d ↔ a = some d ∧ b = some d := by
  unfold same
  cases a <;> cases b <;> simp
  grind

theorem only_of {q : DT → Bool} {d : DT} (h : q d = true) : only q (some d) = some d := only_some.2 ⟨rfl, h⟩

theorem same_self (d : DT) : same (some d) (some d) = some d := same_some.2 ⟨rfl, rfl⟩

theorem isNum_of_float {d : DT} (h : isFloat d = true) : isNum d = true := by
  unfold isFloat at h
  unfold isNum
  simp at h
  simp [h]

theorem isRed_of_float {d : DT} (h : isFloat d = true) : isRed d = true := by simp [isRed, h]

theorem isNum_of_red {d : DT} (h : isRed d = true) : isNum d = true := by
  unfold isRed at h
  simp at h
  rcases h with h | h
  · exact isNum_of_float h
  · exact h.1

theorem isFloat_f32 : isFloat f32 = true := rfl

/-- What a replacement must do. -/
def Sound (hs : Bool) (Γ : ℕ → DT) (env : ℕ → Tensor ℝ) (e e' : E) : Prop :=
  All (Safe hs Γ env) e → ∀ d t, ty Γ e = some d → eval Γ env e = some t →
    All (Safe hs Γ env) e' ∧ ty Γ e' = some d ∧ eval Γ env e' = some t

theorem bind_ex {α β : Type} {o : Option α} {f : α → Option β} {b : β} (h : o.bind f = some b) :
    ∃ a, o = some a ∧ f a = some b := Option.bind_eq_some_iff.1 h

theorem sound_reduce {r : Red} {e e' : E} {axes : Option (List ℤ)} {keep noop : Bool}
    (h : ruleReduce r e axes keep noop = .into e') : Sound hs Γ env (.reduce r e axes keep noop) e' := by
  intro hsafe d t hd ht
  obtain ⟨⟨h1, h2⟩, hc⟩ := hsafe
  rw [eval] at ht
  obtain ⟨x, hx, hxt⟩ := bind_ex ht
  unfold ruleReduce at h
  cases r with
  | sum => cases h
  | max => cases h
  | min => cases h
  | l1 =>
    cases h
    simp only [ty] at hd
    obtain ⟨hd1, hd2⟩ := only_some.1 hd
    refine ⟨by simp [All, Safe, needsFloat, hc], ?_, ?_⟩
    · simp only [ty, hd1]
      rw [only_of (isNum_of_red hd2), only_of hd2]
    · simp only [eval, hx, Option.bind_some]
      exact l1_rule hxt
  | l2 =>
    cases h
    simp only [ty] at hd
    obtain ⟨hd1, hd2⟩ := only_some.1 hd
    refine ⟨by simp [All, Safe, needsFloat, hc], ?_, ?_⟩
    · simp only [ty, hd1]
      rw [only_of hd2, only_of (h1 rfl d hd1)]
    · simp only [eval, hx, Option.bind_some]
      exact l2_rule hxt
  | logSum =>
    cases h
    simp only [ty] at hd
    obtain ⟨hd1, hd2⟩ := only_some.1 hd
    refine ⟨by simp [All, Safe, needsFloat, hc], ?_, ?_⟩
    · simp only [ty, hd1]
      rw [only_of hd2, only_of (h1 rfl d hd1)]
    · simp only [eval, hx, Option.bind_some]
      exact logSum_rule hxt
  | sumSquare =>
    cases h
    simp only [ty] at hd
    obtain ⟨hd1, hd2⟩ := only_some.1 hd
    refine ⟨by simp [All, Safe, needsFloat, hc], ?_, ?_⟩
    · simp only [ty, hd1, same_self]
      rw [only_of (isNum_of_red hd2), only_of hd2]
    · simp only [eval, hx, Option.bind_some]
      exact sumSquare_rule hxt
  | logSumExp =>
    simp only [ty] at hd
    obtain ⟨hd1, hd2⟩ := only_some.1 hd
    have hf := h1 rfl d hd1
    have hfd : ∀ d', ty Γ e = some d' → isFloat d' = true := fun d' h' => by
      rw [hd1] at h'; cases h'; exact hf
    have hn := isNum_of_float hf
    cases keep with
    | true =>
      cases h
      refine ⟨by simp [All, Safe, needsFloat, hc, ty, hd1, same_self, only_of hn, only_of hf]; exact hf, ?_, ?_⟩
      · simp only [ty, hd1, same_self, only_of hn, only_of hf, only_of hd2]
      · simp only [eval, hx, Option.bind_some]
        exact logSumExp_keep hxt
    | false =>
      cases h
      refine ⟨by simp [All, Safe, needsFloat, hc, ty, hd1, same_self, only_of hn, only_of hf]; exact hf, ?_, ?_⟩
      · simp only [ty, hd1, same_self, only_of hn, only_of hf, only_of hd2]
      · simp only [eval, hx, Option.bind_some]
        exact logSumExp_drop (h2 rfl) hxt

theorem of_into {o : Option E} {e : E} (h : Outcome.of o = .into e) : o = some e := by
  cases o with
  | none => cases h
  | some a => cases h; rfl

theorem denseInts_some {l m : List ℤ} (h : denseInts l = some m) : m = l ∧ l ≠ [] := by
  unfold denseInts at h
  split at h
  · cases h
  · cases h; exact ⟨rfl, by assumption⟩

theorem denseFloats_some {l : List ℝ} {e : E} (h : denseFloats l = some e) :
    e = .cst f32 ⟨[l.length], l, by simp⟩ ∧ l ≠ [] := by
  unfold denseFloats at h
  split at h
  · cases h
  · cases h; exact ⟨rfl, by assumption⟩

theorem sound_reduceV13 {r : Red} {e e' : E} {axes : Option (List ℤ)} {keep : Bool}
    (h : ruleReduceV13 r e axes keep = .into e') : Sound hs Γ env (.reduceV13 r e axes keep) e' := by
  intro hsafe d t hd ht
  obtain ⟨h1, hc⟩ := hsafe
  have key : ∀ ax, (ax = none ∨ ∃ a l, ax = some (a :: l)) → (r ≠ .max ∧ r ≠ .min) → axes = ax →
      All (Safe hs Γ env) (.reduce r e ax keep false) ∧ ty Γ (.reduce r e ax keep false) = some d ∧
        eval Γ env (.reduce r e ax keep false) = some t := by
    rintro ax hax hr rfl
    refine ⟨⟨⟨h1, fun _ => ?_⟩, hc⟩, ?_, ht⟩
    · rcases hax with rfl | ⟨a, l, rfl⟩
      · exact .inr (.inl ⟨rfl, rfl⟩)
      · exact .inr (.inr (.inr ⟨a, l, rfl⟩))
    · cases r <;> first | exact hd | exact absurd rfl hr.1 | exact absurd rfl hr.2
  have h2 : (r ≠ .max ∧ r ≠ .min) ∧ (match axes with
      | Option.none => Outcome.into (.reduce r e Option.none keep false)
      | some l => Outcome.of ((denseInts l).map fun l => .reduce r e (some l) keep false)) = .into e' := by
    unfold ruleReduceV13 at h
    cases r <;> first | cases h | exact ⟨⟨by decide, by decide⟩, h⟩
  obtain ⟨hr, h2⟩ := h2
  cases axes with
  | none =>
    cases h2
    exact key none (.inl rfl) hr rfl
  | some l =>
    obtain ⟨m, hm, rfl⟩ := Option.map_eq_some_iff.1 (of_into h2)
    obtain ⟨rfl, hl⟩ := denseInts_some hm
    obtain ⟨a, l', rfl⟩ := List.exists_cons_of_ne_nil hl
    exact key _ (.inr ⟨a, l', rfl⟩) hr rfl

theorem scalerData_sound {e : E} {d : DT} {x : Tensor ℝ} (hc : All (Safe hs Γ env) e) (hd : ty Γ e = some d)
    (hx : eval Γ env e = some x) : All (Safe hs Γ env) (scalerData Γ e) ∧ ty Γ (scalerData Γ e) = some f32 ∧
      eval Γ env (scalerData Γ e) = some x := by
  unfold scalerData
  split
  · rename_i h
    exact ⟨hc, h, hx⟩
  · refine ⟨⟨trivial, hc⟩, by simp [ty, hd], ?_⟩
    rw [eval, hx, Option.bind_some, castR_f32]

theorem sound_scaler {e e' : E} {off scale : Option (List ℝ)} (h : ruleScaler Γ e off scale = .into e') :
    Sound hs Γ env (.scaler e off scale) e' := by
  intro hsafe d t hd ht
  obtain ⟨_, hc⟩ := hsafe
  rw [eval] at ht
  obtain ⟨x, hx, hxt⟩ := bind_ex ht
  rw [ty] at hd
  obtain ⟨d0, hd0, rfl⟩ := Option.map_eq_some_iff.1 hd
  obtain ⟨hs1, hs2, hs3⟩ := scalerData_sound hc (only_some.1 hd0).1 hx
  unfold scalerR at hxt
  split at hxt
  swap
  · cases hxt
  rename_i hfit
  obtain ⟨hne, ho, hsc⟩ := hfit
  cases hxt
  have hnum : only isNum (some f32) = some f32 := rfl
  unfold ruleScaler at h
  cases off with
  | none =>
    cases scale with
    | none =>
      cases h
      refine ⟨hs1, hs2, ?_⟩
      rw [hs3]
      refine congrArg some (Eq.trans (build_get x).symm (build_congr fun i _ => ?_))
      simp [scalerAt]
    | some s =>
      obtain ⟨c, hc', rfl⟩ := Option.map_eq_some_iff.1 (of_into h)
      obtain ⟨rfl, hl⟩ := denseFloats_some hc'
      refine ⟨⟨trivial, hs1, trivial⟩, by simp [ty, hs2, same_self, hnum], ?_⟩
      simp only [eval, hs3, Option.bind_some]
      rw [binary_row _ 1 hne hsc hl]
      refine congrArg some (build_congr fun i _ => ?_)
      simp [scalerAt, biR]
  | some o =>
    cases scale with
    | none =>
      obtain ⟨c, hc', rfl⟩ := Option.map_eq_some_iff.1 (of_into h)
      obtain ⟨rfl, hl⟩ := denseFloats_some hc'
      refine ⟨⟨trivial, hs1, trivial⟩, by simp [ty, hs2, same_self, hnum], ?_⟩
      simp only [eval, hs3, Option.bind_some]
      rw [binary_row _ 0 hne ho hl]
      refine congrArg some (build_congr fun i _ => ?_)
      simp [scalerAt, biR]
    | some s =>
      obtain ⟨c, hc', h'⟩ := bind_ex (of_into h)
      obtain ⟨c2, hc2, rfl⟩ := Option.map_eq_some_iff.1 h'
      obtain ⟨rfl, hl⟩ := denseFloats_some hc'
      obtain ⟨rfl, hl2⟩ := denseFloats_some hc2
      refine ⟨⟨trivial, ⟨trivial, hs1, trivial⟩, trivial⟩, by simp [ty, hs2, same_self, hnum], ?_⟩
      simp only [eval, hs3, Option.bind_some]
      rw [binary_row _ 0 hne ho hl, Option.bind_some, binary_row _ 1 (by exact hne) (by exact hsc) hl2]
      refine congrArg some (build_congr fun i hi => ?_)
      rw [get_build _ (by exact hi)]
      rfl

theorem binary_const (f : ℝ → ℝ → ℝ) {x : Tensor ℝ} (v : ℝ) (h : x.shape ≠ []) :
    binary f x (build [1] fun _ => v) = some (x.map fun w => f w v) :=
  binary_sc_right (.inr rfl) (.inr h)

theorem sound_hardSwish {e : E} (hs1 : hs = true) : Sound hs Γ env (.hardSwish e) (ruleHardSwish e) := by
  intro hsafe d t hd ht
  obtain ⟨h1, hc⟩ := hsafe
  obtain ⟨h1, h2⟩ := h1 hs1
  rw [eval] at ht
  obtain ⟨x, hx, rfl⟩ := Option.map_eq_some_iff.1 ht
  rw [ty] at hd
  obtain ⟨hd1, hd2⟩ := only_some.1 hd
  have hne := h2 x hx
  cases h1 d hd1
  have hnum : only isNum (some f32) = some f32 := rfl
  refine ⟨by simp [All, ruleHardSwish, constantFloat32, Safe, hc], ?_, ?_⟩
  · simp [ty, ruleHardSwish, constantFloat32, hd1, same_self, hnum]
  · simp only [eval, ruleHardSwish, constantFloat32, hx, Option.bind_some]
    rw [binary_const _ _ hne, Option.bind_some, binary_const _ _ (by exact hne), Option.bind_some,
      binary_const _ _ (by exact hne), Option.bind_some, binary_const _ _ (by exact hne), Option.bind_some,
      binary_same (s := x.shape) (a := x) rfl (by rfl)]
    refine congrArg some (eq_build (t := x.map hardSwishR) rfl fun i hi => ?_).symm
    have hi : InBounds x.shape i := hi
    rw [get_map _ _ hi, get_map _ _ (by exact hi), get_map _ _ (by exact hi), get_map _ _ (by exact hi), get_map _ _ hi]
    simp only [biR, hardSwishR]
    rw [max_comm, min_comm]
    congr 3
    ring

theorem sound_clipV6 {e : E} {mx mn : ℝ} :
    Sound hs Γ env (.clipV6 e mx mn) (.clip .v11 e (scalarF32 mn) (scalarF32 mx)) := by
  intro hsafe d t hd ht
  obtain ⟨h1, hc⟩ := hsafe
  rw [eval] at ht
  obtain ⟨x, hx, rfl⟩ := Option.map_eq_some_iff.1 ht
  rw [ty] at hd
  obtain ⟨hd1, hd2⟩ := only_some.1 hd
  cases h1 d hd1
  refine ⟨⟨trivial, hc, trivial, trivial⟩, ?_, ?_⟩
  · simp only [ty, scalarF32, hd1]
    rfl
  · simp only [eval, scalarF32, hx, Option.bind_some, optVal, Option.map_some]
    unfold clipR
    rw [if_pos (by simp)]
    rfl

theorem sound_constantOfShape {s : List ℤ} {v : Option (DT × ℝ)} : Sound hs Γ env (.constantOfShape s v)
    (.expand (.cst (v.elim f32 Prod.fst) (build [] fun _ => v.elim 0 Prod.snd)) s) := by
  intro _ d t hd ht
  refine ⟨⟨trivial, trivial⟩, hd, ?_⟩
  rw [eval] at ht
  unfold fillR at ht
  split at ht
  swap
  · cases ht
  rename_i hnn
  cases ht
  simp only [eval, Option.bind_some]
  rw [if_pos hnn]
  unfold Rewrite.expand
  rw [build_shape, bshape_sc (.inl rfl) (.inl rfl), Option.map_some]
  refine congrArg some (build_congr fun i _ => ?_)
  exact sc_get (t := build [] fun _ => v.elim 0 Prod.snd) (.inl rfl) i

/-- The replacement of an operator. -/
theorem sound_rule {e e' : E} (h : rule (p.patterns hs) Γ e = .into e') : Sound hs Γ env e e' := by
  cases e with
  | reduce r e axes keep noop => exact sound_reduce h
  | reduceV13 r e axes keep => exact sound_reduceV13 h
  | reduceV18 isMax e axes keep noop =>
    cases h
    rintro ⟨_, hc⟩ d t hd ht
    cases isMax
    · exact ⟨⟨⟨fun h => (by cases h), fun h => (by cases h)⟩, hc⟩, hd, ht⟩
    · exact ⟨⟨⟨fun h => (by cases h), fun h => (by cases h)⟩, hc⟩, hd, ht⟩
  | squeezeV11 e axes =>
    rintro ⟨_, hc⟩ d t hd ht
    cases axes with
    | none => cases h; exact ⟨⟨trivial, hc⟩, hd, ht⟩
    | some l =>
      obtain ⟨m, hm, rfl⟩ := Option.map_eq_some_iff.1 (of_into h)
      obtain ⟨rfl, _⟩ := denseInts_some hm
      exact ⟨⟨trivial, hc⟩, hd, ht⟩
  | unsqueezeV11 e axes =>
    rintro ⟨_, hc⟩ d t hd ht
    obtain ⟨m, hm, rfl⟩ := Option.map_eq_some_iff.1 (of_into h)
    obtain ⟨rfl, _⟩ := denseInts_some hm
    exact ⟨⟨trivial, hc⟩, hd, ht⟩
  | scaler e off scale => exact sound_scaler h
  | logSoftmax e axis =>
    cases h
    rintro ⟨_, hc⟩ d t hd ht
    rw [ty] at hd
    obtain ⟨hd1, hd2⟩ := only_some.1 hd
    rw [eval] at ht
    obtain ⟨x, hx, hxt⟩ := bind_ex ht
    refine ⟨⟨trivial, trivial, hc⟩, ?_, ?_⟩
    · simp only [ty, hd1, only_of hd2]
    · simp only [eval, hx, Option.bind_some]
      exact logSoftmax_rule hxt
  | hardSwish e =>
    by_cases h0 : (p.patterns hs).hardSwish = true
    · have hh : hs = true := by cases p <;> exact h0
      have : rule (p.patterns hs) Γ (.hardSwish e) = .into (ruleHardSwish e) := by
        show (if (p.patterns hs).hardSwish = true then _ else _) = _
        rw [if_pos h0]
      rw [this] at h
      cases h
      exact sound_hardSwish hh
    · have : rule (p.patterns hs) Γ (.hardSwish e) = .fail := by
        show (if (p.patterns hs).hardSwish = true then _ else _) = _
        rw [if_neg h0]
      rw [this] at h
      cases h
  | clipV6 e mx mn => cases h; exact sound_clipV6
  | clip v e lo hi =>
    cases v with
    | v11 => cases h; exact fun hc d t hd ht => ⟨⟨trivial, hc.2⟩, hd, ht⟩
    | v12 => cases h; exact fun hc d t hd ht => ⟨⟨trivial, hc.2⟩, hd, ht⟩
    | v13 => cases h
  | castLike e f =>
    have h' : (if (p.patterns hs).castLike = true then Outcome.into (.un (.cast ((ty Γ f).getD f32)) e) else .fail) =
      .into e' := h
    split at h'
    · cases h'
      rintro ⟨_, hc, _⟩ d t hd ht
      rw [ty] at hd
      obtain ⟨d0, hd0, hdf⟩ := bind_ex hd
      rw [eval] at ht
      obtain ⟨x, hx, hxt⟩ := bind_ex ht
      obtain ⟨_, _, hxt⟩ := bind_ex hxt
      refine ⟨⟨trivial, hc⟩, by simp [ty, hd0, hdf], ?_⟩
      simp only [eval, hx, Option.bind_some]
      exact hxt
    · cases h'
  | constantOfShape s v => cases h; exact sound_constantOfShape
  | arg k => cases h
  | none => cases h
  | cst d t => cases h
  | un u e => cases h
  | bi b e f => cases h
  | squeeze e a => cases h
  | unsqueeze e a => cases h
  | softmax e a => cases h
  | expand e s => cases h

/-! ### Anywhere -/

theorem none_of_clip {d : DT} {lo : E} {t : Option DT} (h : boundTy d lo t = true) (hn : lo ≠ .none) : t = some d := by
  cases lo <;> first | exact of_decide_eq_true h | exact absurd rfl hn

theorem step_ne_none {e e' : E} (h : Step p hs Γ e e') : e ≠ .none := by
  rintro rfl
  cases h with
  | root _ h => cases h

theorem optVal_ne {e : E} {v : Option (Tensor ℝ)} (h : e ≠ .none) : optVal e v = v.map some := by
  cases e <;> first | rfl | exact absurd rfl h

theorem boundTy_ne {e : E} {d : DT} {t : Option DT} (h : e ≠ .none) : boundTy d e t = decide (t = some d) := by
  cases e <;> first | rfl | exact absurd rfl h

theorem ty_ne {e : E} {d : DT} (h : ty Γ e = some d) : e ≠ .none := by
  rintro rfl
  cases h

/-- The value of a part decides the value of the whole, and so for its type. -/
theorem sound_step {e e' : E} (h : Step p hs Γ e e') : Sound hs Γ env e e' := by
  induction h with
  | root _ h => exact sound_rule h
  | @un u e e' _ ih =>
    rintro ⟨h1, hc⟩ d t hd ht
    rw [eval] at ht
    obtain ⟨x, hx, hxt⟩ := bind_ex ht
    have hd0 : ∃ d0, ty Γ e = some d0 := by
      cases u with
      | cast c => rw [ty] at hd; obtain ⟨d0, h, _⟩ := Option.map_eq_some_iff.1 hd; exact ⟨d0, h⟩
      | _ => exact ⟨d, (only_some.1 hd).1⟩
    obtain ⟨d0, hd0⟩ := hd0
    obtain ⟨i1, i2, i3⟩ := ih hc d0 x hd0 hx
    refine ⟨⟨trivial, i1⟩, ?_, ?_⟩
    · rw [← hd]
      cases u <;> simp only [ty, i2, hd0]
    · simp only [eval, i3, Option.bind_some, hxt]
  | @bil b e e' f _ ih =>
    rintro ⟨h1, hc, hcf⟩ d t hd ht
    rw [eval] at ht
    obtain ⟨x, hx, hxt⟩ := bind_ex ht
    rw [ty] at hd
    have h3 := same_some.1 (only_some.1 hd).1
    obtain ⟨i1, i2, i3⟩ := ih hc d x h3.1 hx
    exact ⟨⟨trivial, i1, hcf⟩, by rw [h3.1] at hd; rw [ty, i2]; exact hd, by rw [eval, i3, Option.bind_some, hxt]⟩
  | @bir b e f f' _ ih =>
    rintro ⟨h1, hc, hcf⟩ d t hd ht
    rw [eval] at ht
    obtain ⟨x, hx, hxt⟩ := bind_ex ht
    obtain ⟨y, hy, hyt⟩ := bind_ex hxt
    rw [ty] at hd
    have h3 := same_some.1 (only_some.1 hd).1
    obtain ⟨i1, i2, i3⟩ := ih hcf d y h3.2 hy
    exact ⟨⟨trivial, hc, i1⟩, by rw [h3.2] at hd; rw [ty, i2]; exact hd, by rw [eval, i3, hx, Option.bind_some, Option.bind_some, hyt]⟩
  | @reduce r e e' a k n _ ih =>
    rintro ⟨h1, hc⟩ d t hd ht
    rw [eval] at ht
    obtain ⟨x, hx, hxt⟩ := bind_ex ht
    have hd0 : ty Γ e = some d := by
      cases r <;> first | exact hd | exact (only_some.1 hd).1
    obtain ⟨i1, i2, i3⟩ := ih hc d x hd0 hx
    refine ⟨⟨?_, i1⟩, ?_, by rw [eval, i3, Option.bind_some, hxt]⟩
    · simp only [Safe, i2]
      simp only [Safe, hd0] at h1
      exact h1
    · rw [← hd]
      cases r <;> simp only [ty, i2, hd0]
  | @reduceV18 r e e' a k n _ ih =>
    rintro ⟨h1, hc⟩ d t hd ht
    rw [eval] at ht
    obtain ⟨x, hx, hxt⟩ := bind_ex ht
    obtain ⟨i1, i2, i3⟩ := ih hc d x hd hx
    exact ⟨⟨trivial, i1⟩, i2, by rw [eval, i3, Option.bind_some, hxt]⟩
  | @reduceV13 r e e' a k _ ih =>
    rintro ⟨h1, hc⟩ d t hd ht
    rw [eval] at ht
    obtain ⟨x, hx, hxt⟩ := bind_ex ht
    rw [ty] at hd
    have hd0 := (only_some.1 hd).1
    obtain ⟨i1, i2, i3⟩ := ih hc d x hd0 hx
    refine ⟨⟨?_, i1⟩, by rw [hd0] at hd; rw [ty, i2]; exact hd, by rw [eval, i3, Option.bind_some, hxt]⟩
    simp only [Safe, i2]
    simp only [Safe, hd0] at h1
    exact h1
  | @squeeze e e' a _ ih =>
    rintro ⟨h1, hc⟩ d t hd ht
    rw [eval] at ht
    obtain ⟨x, hx, hxt⟩ := bind_ex ht
    obtain ⟨i1, i2, i3⟩ := ih hc d x hd hx
    exact ⟨⟨trivial, i1⟩, i2, by rw [eval, i3, Option.bind_some, hxt]⟩
  | @squeezeV11 e e' a _ ih =>
    rintro ⟨h1, hc⟩ d t hd ht
    rw [eval] at ht
    obtain ⟨x, hx, hxt⟩ := bind_ex ht
    obtain ⟨i1, i2, i3⟩ := ih hc d x hd hx
    exact ⟨⟨trivial, i1⟩, i2, by rw [eval, i3, Option.bind_some, hxt]⟩
  | @unsqueeze e e' a _ ih =>
    rintro ⟨h1, hc⟩ d t hd ht
    rw [eval] at ht
    obtain ⟨x, hx, hxt⟩ := bind_ex ht
    obtain ⟨i1, i2, i3⟩ := ih hc d x hd hx
    exact ⟨⟨trivial, i1⟩, i2, by rw [eval, i3, Option.bind_some, hxt]⟩
  | @unsqueezeV11 e e' a _ ih =>
    rintro ⟨h1, hc⟩ d t hd ht
    rw [eval] at ht
    obtain ⟨x, hx, hxt⟩ := bind_ex ht
    obtain ⟨i1, i2, i3⟩ := ih hc d x hd hx
    exact ⟨⟨trivial, i1⟩, i2, by rw [eval, i3, Option.bind_some, hxt]⟩
  | @softmax e e' a _ ih =>
    rintro ⟨h1, hc⟩ d t hd ht
    rw [eval] at ht
    obtain ⟨x, hx, hxt⟩ := bind_ex ht
    rw [ty] at hd
    have hd0 := (only_some.1 hd).1
    obtain ⟨i1, i2, i3⟩ := ih hc d x hd0 hx
    exact ⟨⟨trivial, i1⟩, by rw [hd0] at hd; rw [ty, i2]; exact hd, by rw [eval, i3, Option.bind_some, hxt]⟩
  | @logSoftmax e e' a _ ih =>
    rintro ⟨h1, hc⟩ d t hd ht
    rw [eval] at ht
    obtain ⟨x, hx, hxt⟩ := bind_ex ht
    rw [ty] at hd
    have hd0 := (only_some.1 hd).1
    obtain ⟨i1, i2, i3⟩ := ih hc d x hd0 hx
    exact ⟨⟨trivial, i1⟩, by rw [hd0] at hd; rw [ty, i2]; exact hd, by rw [eval, i3, Option.bind_some, hxt]⟩
  | @scaler e e' o s _ ih =>
    rintro ⟨h1, hc⟩ d t hd ht
    rw [eval] at ht
    obtain ⟨x, hx, hxt⟩ := bind_ex ht
    rw [ty] at hd
    obtain ⟨d0, hd0, _⟩ := Option.map_eq_some_iff.1 hd
    have hd0 := (only_some.1 hd0).1
    obtain ⟨i1, i2, i3⟩ := ih hc d0 x hd0 hx
    exact ⟨⟨trivial, i1⟩, by rw [hd0] at hd; rw [ty, i2]; exact hd, by rw [eval, i3, Option.bind_some, hxt]⟩
  | @hardSwish e e' _ ih =>
    rintro ⟨h1, hc⟩ d t hd ht
    rw [eval] at ht
    obtain ⟨x, hx, rfl⟩ := Option.map_eq_some_iff.1 ht
    rw [ty] at hd
    have hd0 := (only_some.1 hd).1
    obtain ⟨i1, i2, i3⟩ := ih hc d x hd0 hx
    refine ⟨⟨?_, i1⟩, by rw [hd0] at hd; rw [ty, i2]; exact hd, by rw [eval, i3, Option.map_some]⟩
    simp only [Safe, i2, i3]
    simp only [Safe, hd0, hx] at h1
    exact h1
  | @clipx v e e' l h _ ih =>
    rintro ⟨h1, hc, hcl, hch⟩ d t hd ht
    rw [eval] at ht
    obtain ⟨x, hx, hxt⟩ := bind_ex ht
    rw [ty] at hd
    have hd0 := (only_some.1 (Option.filter_eq_some_iff.1 hd).1).1
    obtain ⟨i1, i2, i3⟩ := ih hc d x hd0 hx
    exact ⟨⟨trivial, i1, hcl, hch⟩, by rw [hd0] at hd; rw [ty, i2]; exact hd, by rw [eval, i3, Option.bind_some, hxt]⟩
  | @clipl v e l l' h hst ih =>
    rintro ⟨h1, hc, hcl, hch⟩ d t hd ht
    rw [eval] at ht
    obtain ⟨x, hx, hxt⟩ := bind_ex ht
    obtain ⟨vl, hvl, hxt⟩ := bind_ex hxt
    have hln := step_ne_none hst
    rw [optVal_ne hln] at hvl
    obtain ⟨y, hy, rfl⟩ := Option.map_eq_some_iff.1 hvl
    have hd' := hd
    rw [ty] at hd'
    have hb := (Option.filter_eq_some_iff.1 hd').2
    have hd0 := none_of_clip (Bool.and_eq_true _ _ |>.mp hb).1 hln
    obtain ⟨i1, i2, i3⟩ := ih hcl d y hd0 hy
    have hln' := ty_ne i2
    refine ⟨⟨trivial, hc, i1, hch⟩, ?_, ?_⟩
    · rw [← hd, ty, ty]
      congr 1
      funext d'
      rw [boundTy_ne hln, boundTy_ne hln', i2, hd0]
    · rw [eval, hx, Option.bind_some, optVal_ne hln', i3, Option.map_some, Option.bind_some, hxt]
  | @cliph v e l h h' hst ih =>
    rintro ⟨h1, hc, hcl, hch⟩ d t hd ht
    rw [eval] at ht
    obtain ⟨x, hx, hxt⟩ := bind_ex ht
    obtain ⟨vl, hvl, hxt⟩ := bind_ex hxt
    obtain ⟨vh, hvh, hxt⟩ := bind_ex hxt
    have hln := step_ne_none hst
    rw [optVal_ne hln] at hvh
    obtain ⟨y, hy, rfl⟩ := Option.map_eq_some_iff.1 hvh
    have hd' := hd
    rw [ty] at hd'
    have hb := (Option.filter_eq_some_iff.1 hd').2
    have hd0 := none_of_clip (Bool.and_eq_true _ _ |>.mp hb).2 hln
    obtain ⟨i1, i2, i3⟩ := ih hch d y hd0 hy
    have hln' := ty_ne i2
    refine ⟨⟨trivial, hc, hcl, i1⟩, ?_, ?_⟩
    · rw [← hd, ty, ty]
      congr 1
      funext d'
      rw [boundTy_ne hln, boundTy_ne hln', i2, hd0]
    · rw [eval, hx, Option.bind_some, hvl, Option.bind_some, optVal_ne hln', i3, Option.map_some, Option.bind_some, hxt]
  | @clipV6 e e' a b _ ih =>
    rintro ⟨h1, hc⟩ d t hd ht
    rw [eval] at ht
    obtain ⟨x, hx, rfl⟩ := Option.map_eq_some_iff.1 ht
    rw [ty] at hd
    have hd0 := (only_some.1 hd).1
    obtain ⟨i1, i2, i3⟩ := ih hc d x hd0 hx
    refine ⟨⟨?_, i1⟩, by rw [hd0] at hd; rw [ty, i2]; exact hd, by rw [eval, i3, Option.map_some]⟩
    simp only [Safe, i2]
    simp only [Safe, hd0] at h1
    exact h1
  | @castLikel e e' f _ ih =>
    rintro ⟨h1, hc, hcf⟩ d t hd ht
    rw [eval] at ht
    obtain ⟨x, hx, hxt⟩ := bind_ex ht
    rw [ty] at hd
    obtain ⟨d0, hd0, hdf⟩ := bind_ex hd
    obtain ⟨i1, i2, i3⟩ := ih hc d0 x hd0 hx
    exact ⟨⟨trivial, i1, hcf⟩, by rw [ty, i2, Option.bind_some, hdf], by rw [eval, i3, Option.bind_some, hxt]⟩
  | @castLiker e f f' _ ih =>
    rintro ⟨h1, hc, hcf⟩ d t hd ht
    rw [eval] at ht
    obtain ⟨x, hx, hxt⟩ := bind_ex ht
    obtain ⟨y, hy, hyt⟩ := bind_ex hxt
    rw [ty] at hd
    obtain ⟨d0, hd0, hdf⟩ := bind_ex hd
    obtain ⟨i1, i2, i3⟩ := ih hcf d y hdf hy
    refine ⟨⟨trivial, hc, i1⟩, by rw [ty, hd0, Option.bind_some, i2], ?_⟩
    rw [eval, hx, Option.bind_some, i3, Option.bind_some, i2, ← hdf, hyt]
  | @expand e e' s _ ih =>
    rintro ⟨h1, hc⟩ d t hd ht
    rw [eval] at ht
    obtain ⟨x, hx, hxt⟩ := bind_ex ht
    obtain ⟨i1, i2, i3⟩ := ih hc d x hd hx
    exact ⟨⟨trivial, i1⟩, i2, by rw [eval, i3, Option.bind_some, hxt]⟩

theorem sound_steps {e e' : E} (h : Steps p hs Γ e e') : Sound hs Γ env e e' := by
  induction h with
  | refl => exact fun hc d t hd ht => ⟨hc, hd, ht⟩
  | tail _ hst ih =>
    intro hc d t hd ht
    obtain ⟨i1, i2, i3⟩ := ih hc d t hd ht
    exact sound_step hst i1 d t i2 i3

end Verif.Decompose
