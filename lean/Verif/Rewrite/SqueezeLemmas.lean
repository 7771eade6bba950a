import Verif.Rewrite.SqueezeSem
import Verif.Rewrite.SqueezeRules

/-! # The Squeeze and Unsqueeze patterns keep results when the axes are counted in one direction -/

namespace Verif.Rewrite

variable {V : Type} [Inhabited V] {A : Alg V} {env : ℕ → Tensor V}

theorem sameAxes_set {r : ℕ} {u s : List ℤ} (h : sameAxes r u s = true) (hs : SameSign u s) :
    ∀ a, a ∈ u ↔ a ∈ s := by
  unfold sameAxes at h
  have h := of_decide_eq_true h
  rcases hs with hs | hs
  · have e : ∀ l : List ℤ, (∀ a ∈ l, 0 ≤ a) →
        (l.map fun a => if a < 0 then a + (r : ℤ) else a) = l := by
      intro l hl
      conv_rhs => rw [← List.map_id l]
      refine List.map_congr_left fun a ha => ?_
      rw [if_neg (by have := hl a ha; omega)]; rfl
    rw [e u fun a ha => hs a (by simp [ha]), e s fun a ha => hs a (by simp [ha])] at h
    intro a
    rw [← List.mem_toFinset, h, List.mem_toFinset]
  · have e : ∀ l : List ℤ, (∀ a ∈ l, a < 0) →
        (l.map fun a => if a < 0 then a + (r : ℤ) else a) = l.map fun a => a + (r : ℤ) := by
      intro l hl
      refine List.map_congr_left fun a ha => ?_
      rw [if_pos (hl a ha)]
    rw [e u fun a ha => hs a (by simp [ha]), e s fun a ha => hs a (by simp [ha])] at h
    have key : ∀ (l : List ℤ) (a : ℤ), a ∈ l ↔ a + (r : ℤ) ∈ (l.map fun a => a + (r : ℤ)).toFinset := by
      intro l a
      simp
    intro a
    rw [key u, h, ← key s]

theorem sameAxesConst_iff {r : ℕ} {u s : Ex V} :
    sameAxesConst A r u s = true ↔ ∃ t d t' d', u = .const t d ∧ s = .const t' d' ∧
      sameAxes r (t.data.map A.toInt) (t'.data.map A.toInt) = true := by
  unfold sameAxesConst constInts
  cases u <;> cases s <;> simp

theorem ints_const {t : Tensor V} {l : List ℤ} (h : ints A t = some l) : l = t.data.map A.toInt := by
  unfold ints at h
  split at h
  · exact (Option.some.inj h).symm
  · cases h

theorem eval_unsqueeze {e u : Ex V} {ty : STy} {v : Option (Tensor V)} :
    eval A env (.op .unsqueeze [e, u] ty) = some v ↔
      ∃ x t l y, eval A env e = some (some x) ∧ eval A env u = some (some t) ∧ ints A t = some l ∧
        unsqueeze x l = some y ∧ v = some y := by
  rw [eval_op2]
  constructor
  · rintro ⟨x, t, y, hx, hu, hs, rfl⟩
    cases x with
    | none => simp [sem] at hs
    | some x =>
      cases t with
      | none => simp [sem] at hs
      | some t =>
        simp only [sem, Option.bind_eq_some_iff] at hs
        obtain ⟨l, hl, hs⟩ := hs
        exact ⟨x, t, l, y, hx, hu, hl, hs, rfl⟩
  · rintro ⟨x, t, l, y, hx, hu, hl, hs, rfl⟩
    exact ⟨some x, some t, y, hx, hu, by simp [sem, hl, hs], rfl⟩

/-- Squeeze with an axes operand that is a constant. -/
theorem eval_squeeze_const {e : Ex V} {t : Tensor V} {d : DT} {ty : STy} {v : Option (Tensor V)} :
    eval A env (.op .squeeze [e, .const t d] ty) = some v ↔
      ∃ x l y, eval A env e = some (some x) ∧ ints A t = some l ∧
        squeeze x (some l) = some y ∧ v = some y := by
  rw [eval_op2]
  constructor
  · rintro ⟨x, t', y, hx, hu, hs, rfl⟩
    simp only [eval, Option.some.injEq] at hu
    subst hu
    cases x with
    | none => simp [sem] at hs
    | some x =>
      simp only [sem, optInts, Option.bind_eq_some_iff, Option.map_eq_some_iff] at hs
      obtain ⟨_, ⟨l, hl, rfl⟩, hs⟩ := hs
      exact ⟨x, l, y, hx, hl, hs, rfl⟩
  · rintro ⟨x, l, y, hx, hl, hs, rfl⟩
    exact ⟨some x, some t, y, hx, by simp [eval], by simp [sem, optInts, hl, hs], rfl⟩

theorem eval_squeezeV11 {e : Ex V} {ax : Option (List ℤ)} {ty : STy} {v : Option (Tensor V)} :
    eval A env (.op (.squeezeV11 ax) [e] ty) = some v ↔
      ∃ x y, eval A env e = some (some x) ∧ squeeze x ax = some y ∧ v = some y := by
  rw [eval_op1]
  constructor
  · rintro ⟨x, y, hx, hs, rfl⟩
    cases x with
    | none => simp [sem] at hs
    | some x => exact ⟨x, y, hx, by simpa [sem] using hs, rfl⟩
  · rintro ⟨x, y, hx, hs, rfl⟩
    exact ⟨some x, y, hx, by simpa [sem] using hs, rfl⟩

theorem eval_unsqueezeV11 {e : Ex V} {ax : List ℤ} {ty : STy} {v : Option (Tensor V)} :
    eval A env (.op (.unsqueezeV11 ax) [e] ty) = some v ↔
      ∃ x y, eval A env e = some (some x) ∧ unsqueeze x ax = some y ∧ v = some y := by
  rw [eval_op1]
  constructor
  · rintro ⟨x, y, hx, hs, rfl⟩
    cases x with
    | none => simp [sem] at hs
    | some x => exact ⟨x, y, hx, by simpa [sem] using hs, rfl⟩
  · rintro ⟨x, y, hx, hs, rfl⟩
    exact ⟨some x, y, hx, by simpa [sem] using hs, rfl⟩

theorem squeeze_map {W : Type} [Inhabited W] (f : V → W) (x : Tensor V) (l : Option (List ℤ)) :
    squeeze (x.map f) l = (squeeze x l).map (Tensor.map f) := by
  cases l with
  | none => simp only [squeeze, map_shape, retag_map]
  | some l =>
    unfold squeeze
    dsimp only
    rw [map_shape]
    cases l.mapM (normAxis x.shape.length) with
    | none => rfl
    | some ax =>
      simp only [Option.bind_some]
      by_cases h : ∀ a ∈ ax, x.shape.getD a 0 = 1
      · rw [if_pos h, if_pos h, retag_map]
      · rw [if_neg h, if_neg h]; rfl

theorem unsqueeze_map {W : Type} [Inhabited W] (f : V → W) (x : Tensor V) (l : List ℤ) :
    unsqueeze (x.map f) l = (unsqueeze x l).map (Tensor.map f) := by
  simp only [unsqueeze, map_shape]
  cases l.mapM (normAxis (x.shape.length + l.length)) with
  | none => rfl
  | some ax =>
    simp only [Option.bind_some]
    by_cases h : ax.Nodup
    · rw [if_pos h, if_pos h, retag_map]
    · rw [if_neg h, if_neg h]; rfl

/-- The two axes lists of a pair, wherever they are recorded. -/
def axesOf (A : Alg V) : Ex V → Option (List ℤ × List ℤ)
  | .op .squeeze [.op .unsqueeze [_, u] _, s] _
  | .op .squeeze [.op (.cast _ _) [.op .unsqueeze [_, u] _] _, s] _
  | .op .unsqueeze [.op .squeeze [_, s] _, u] _
  | .op .unsqueeze [.op (.cast _ _) [.op .squeeze [_, s] _] _, u] _ =>
    match constInts A u, constInts A s with
    | some u, some s => some (u, s)
    | _, _ => none
  | .op (.squeezeV11 (some s)) [.op (.unsqueezeV11 u) _ _] _
  | .op (.squeezeV11 (some s)) [.op (.cast _ _) [.op (.unsqueezeV11 u) _ _] _] _
  | .op (.unsqueezeV11 u) [.op (.squeezeV11 (some s)) _ _] _
  | .op (.unsqueezeV11 u) [.op (.cast _ _) [.op (.squeezeV11 (some s)) _ _] _] _ => some (u, s)
  | _ => none

/-- All axes are counted from the front, or all from the back. -/
def OneDirection (A : Alg V) (e : Ex V) : Prop := ∀ u s, axesOf A e = some (u, s) → SameSign u s

theorem typed_args1 {o : Op} {a : Ex V} {ty : STy} (h : Typed A env (.op o [a] ty)) :
    Typed A env a ∧ EltOk o [a.ty] ty.elt := by
  rw [typed_op, typedL_cons] at h
  exact ⟨h.2.2.1, h.2.1⟩

theorem typed_args2 {o : Op} {a b : Ex V} {ty : STy} (h : Typed A env (.op o [a, b] ty)) :
    Typed A env a ∧ Typed A env b ∧ EltOk o [a.ty, b.ty] ty.elt := by
  rw [typed_op, typedL_cons, typedL_cons] at h
  exact ⟨h.2.2.1, h.2.2.2.1, h.2.1⟩

theorem typed_new1 {o o' : Op} {as : List (Ex V)} {a : Ex V} {ty : STy} {v : Option (Tensor V)}
    (h : Typed A env (.op o as ty)) (he : eval A env (.op o as ty) = some v)
    (he' : eval A env (.op o' [a] ty) = some v) (hk : EltOk o' [a.ty] ty.elt)
    (ha : Typed A env a) : Typed A env (.op o' [a] ty) :=
  typed_same h he he' hk (typedL_cons.2 ⟨ha, typedL_nil⟩)

theorem removeSqueezeUnsqueeze_sound :
    SoundOn A (fun _ e => OneDirection A e) (removeSqueezeUnsqueeze A) := by
  intro env e e' hr ht hp v hv
  unfold removeSqueezeUnsqueeze at hr
  split at hr
  · split at hr
    · rename_i w u t1 s ty hc
      cases hr
      obtain ⟨tu, du, ts, ds, rfl, rfl, hax⟩ := sameAxesConst_iff.1 hc
      have hsign : SameSign (tu.data.map A.toInt) (ts.data.map A.toInt) := hp _ _ rfl
      obtain ⟨y, ls, z, hy, hls, hz, rfl⟩ := eval_squeeze_const.1 hv
      obtain ⟨x, tu', lu, y', hx, hu, hlu, hy', he⟩ := eval_unsqueeze.1 hy
      simp only [eval, Option.some.injEq] at hu
      subst hu
      cases he
      rw [← ints_const hlu, ← ints_const hls] at hax hsign
      obtain ⟨h1, -, e1⟩ := typed_args2 ht
      obtain ⟨h2, -, e2⟩ := typed_args2 h1
      refine ⟨?_, h2, (e1.trans e2).symm⟩
      rw [squeeze_unsqueeze hy' hz (sameAxes_set hax hsign)]
      exact hx
    · cases hr
  · cases hr

theorem removeSqueezeUnsqueezeV11_sound :
    SoundOn A (fun _ e => OneDirection A e) removeSqueezeUnsqueezeV11 := by
  intro env e e' hr ht hp v hv
  unfold removeSqueezeUnsqueezeV11 at hr
  split at hr
  · split at hr
    · rename_i s u w t1 ty hax
      cases hr
      have hsign : SameSign u s := hp _ _ rfl
      obtain ⟨y, z, hy, hz, rfl⟩ := eval_squeezeV11.1 hv
      obtain ⟨x, y', hx, hy', he⟩ := eval_unsqueezeV11.1 hy
      cases he
      obtain ⟨h1, e1⟩ := typed_args1 ht
      obtain ⟨h2, e2⟩ := typed_args1 h1
      refine ⟨?_, h2, (e1.trans e2).symm⟩
      rw [squeeze_unsqueeze hy' hz (sameAxes_set hax hsign)]
      exact hx
    · cases hr
  · cases hr

theorem removeSqueezeCastUnsqueeze_sound :
    SoundOn A (fun _ e => OneDirection A e) (removeSqueezeCastUnsqueeze A) := by
  intro env e e' hr ht hp v hv
  unfold removeSqueezeCastUnsqueeze at hr
  split at hr
  · split at hr
    · rename_i sat d w u t1 t2 s ty hc
      cases hr
      obtain ⟨tu, du, ts, ds, rfl, rfl, hax⟩ := sameAxesConst_iff.1 hc
      have hsign : SameSign (tu.data.map A.toInt) (ts.data.map A.toInt) := hp _ _ rfl
      obtain ⟨y, ls, z, hy, hls, hz, rfl⟩ := eval_squeeze_const.1 hv
      obtain ⟨y1, hy1, he⟩ := eval_cast.1 hy
      cases he
      obtain ⟨x, tu', lu, y', hx, hu, hlu, hy', he⟩ := eval_unsqueeze.1 hy1
      simp only [eval, Option.some.injEq] at hu
      subst hu
      cases he
      rw [← ints_const hlu, ← ints_const hls] at hax hsign
      obtain ⟨h1, -, e1⟩ := typed_args2 ht
      obtain ⟨h2, e2⟩ := typed_args1 h1
      obtain ⟨h3, -, e3⟩ := typed_args2 h2
      rw [squeeze_map, Option.map_eq_some_iff] at hz
      obtain ⟨z', hz', rfl⟩ := hz
      have hv' : eval A env (.op (.cast sat d) [w] ty) = some (some (z'.map (A.cast d))) := by
        rw [squeeze_unsqueeze hy' hz' (sameAxes_set hax hsign)]
        exact eval_cast.2 ⟨x, hx, rfl⟩
      exact ⟨hv', typed_new1 ht hv hv' (e1.trans e2) h3, rfl⟩
    · cases hr
  · cases hr

theorem removeSqueezeCastUnsqueezeV11_sound :
    SoundOn A (fun _ e => OneDirection A e) removeSqueezeCastUnsqueezeV11 := by
  intro env e e' hr ht hp v hv
  unfold removeSqueezeCastUnsqueezeV11 at hr
  split at hr
  · split at hr
    · rename_i s sat d u w t1 t2 ty hax
      cases hr
      have hsign : SameSign u s := hp _ _ rfl
      obtain ⟨y, z, hy, hz, rfl⟩ := eval_squeezeV11.1 hv
      obtain ⟨y1, hy1, he⟩ := eval_cast.1 hy
      cases he
      obtain ⟨x, y', hx, hy', he⟩ := eval_unsqueezeV11.1 hy1
      cases he
      obtain ⟨h1, e1⟩ := typed_args1 ht
      obtain ⟨h2, e2⟩ := typed_args1 h1
      obtain ⟨h3, e3⟩ := typed_args1 h2
      rw [squeeze_map, Option.map_eq_some_iff] at hz
      obtain ⟨z', hz', rfl⟩ := hz
      have hv' : eval A env (.op (.cast sat d) [w] ty) = some (some (z'.map (A.cast d))) := by
        rw [squeeze_unsqueeze hy' hz' (sameAxes_set hax hsign)]
        exact eval_cast.2 ⟨x, hx, rfl⟩
      exact ⟨hv', typed_new1 ht hv hv' (e1.trans e2) h3, rfl⟩
    · cases hr
  · cases hr

theorem removeUnsqueezeSqueeze_sound :
    SoundOn A (fun _ e => OneDirection A e) (removeUnsqueezeSqueeze A) := by
  intro env e e' hr ht hp v hv
  unfold removeUnsqueezeSqueeze at hr
  split at hr
  · split at hr
    · rename_i w s t1 u ty hc
      cases hr
      obtain ⟨tu, du, ts, ds, rfl, rfl, hax⟩ := sameAxesConst_iff.1 hc
      have hsign : SameSign (tu.data.map A.toInt) (ts.data.map A.toInt) := hp _ _ rfl
      obtain ⟨y, tu', lu, z, hy, hu, hlu, hz, rfl⟩ := eval_unsqueeze.1 hv
      simp only [eval, Option.some.injEq] at hu
      subst hu
      obtain ⟨x, ls, y', hx, hls, hy', he⟩ := eval_squeeze_const.1 hy
      cases he
      rw [← ints_const hlu, ← ints_const hls] at hax hsign
      obtain ⟨h1, -, e1⟩ := typed_args2 ht
      obtain ⟨h2, -, e2⟩ := typed_args2 h1
      refine ⟨?_, h2, (e1.trans e2).symm⟩
      rw [unsqueeze_squeeze hy' hz (sameAxes_set hax hsign) hsign]
      exact hx
    · cases hr
  · cases hr

theorem removeUnsqueezeSqueezeV11_sound :
    SoundOn A (fun _ e => OneDirection A e) removeUnsqueezeSqueezeV11 := by
  intro env e e' hr ht hp v hv
  unfold removeUnsqueezeSqueezeV11 at hr
  split at hr
  · split at hr
    · rename_i u s w t1 ty hax
      cases hr
      have hsign : SameSign u s := hp _ _ rfl
      obtain ⟨y, z, hy, hz, rfl⟩ := eval_unsqueezeV11.1 hv
      obtain ⟨x, y', hx, hy', he⟩ := eval_squeezeV11.1 hy
      cases he
      obtain ⟨h1, e1⟩ := typed_args1 ht
      obtain ⟨h2, e2⟩ := typed_args1 h1
      refine ⟨?_, h2, (e1.trans e2).symm⟩
      rw [unsqueeze_squeeze hy' hz (sameAxes_set hax hsign) hsign]
      exact hx
    · cases hr
  · cases hr

theorem removeUnsqueezeCastSqueeze_sound :
    SoundOn A (fun _ e => OneDirection A e) (removeUnsqueezeCastSqueeze A) := by
  intro env e e' hr ht hp v hv
  unfold removeUnsqueezeCastSqueeze at hr
  split at hr
  · split at hr
    · rename_i sat d w s t1 t2 u ty hc
      cases hr
      obtain ⟨tu, du, ts, ds, rfl, rfl, hax⟩ := sameAxesConst_iff.1 hc
      have hsign : SameSign (tu.data.map A.toInt) (ts.data.map A.toInt) := hp _ _ rfl
      obtain ⟨y, tu', lu, z, hy, hu, hlu, hz, rfl⟩ := eval_unsqueeze.1 hv
      simp only [eval, Option.some.injEq] at hu
      subst hu
      obtain ⟨y1, hy1, he⟩ := eval_cast.1 hy
      cases he
      obtain ⟨x, ls, y', hx, hls, hy', he⟩ := eval_squeeze_const.1 hy1
      cases he
      rw [← ints_const hlu, ← ints_const hls] at hax hsign
      obtain ⟨h1, -, e1⟩ := typed_args2 ht
      obtain ⟨h2, e2⟩ := typed_args1 h1
      obtain ⟨h3, -, e3⟩ := typed_args2 h2
      rw [unsqueeze_map, Option.map_eq_some_iff] at hz
      obtain ⟨z', hz', rfl⟩ := hz
      have hv' : eval A env (.op (.cast sat d) [w] ty) = some (some (z'.map (A.cast d))) := by
        rw [unsqueeze_squeeze hy' hz' (sameAxes_set hax hsign) hsign]
        exact eval_cast.2 ⟨x, hx, rfl⟩
      exact ⟨hv', typed_new1 ht hv hv' (e1.trans e2) h3, rfl⟩
    · cases hr
  · cases hr

theorem removeUnsqueezeCastSqueezeV11_sound :
    SoundOn A (fun _ e => OneDirection A e) removeUnsqueezeCastSqueezeV11 := by
  intro env e e' hr ht hp v hv
  unfold removeUnsqueezeCastSqueezeV11 at hr
  split at hr
  · split at hr
    · rename_i u sat d s w t1 t2 ty hax
      cases hr
      have hsign : SameSign u s := hp _ _ rfl
      obtain ⟨y, z, hy, hz, rfl⟩ := eval_unsqueezeV11.1 hv
      obtain ⟨y1, hy1, he⟩ := eval_cast.1 hy
      cases he
      obtain ⟨x, y', hx, hy', he⟩ := eval_squeezeV11.1 hy1
      cases he
      obtain ⟨h1, e1⟩ := typed_args1 ht
      obtain ⟨h2, e2⟩ := typed_args1 h1
      obtain ⟨h3, e3⟩ := typed_args1 h2
      rw [unsqueeze_map, Option.map_eq_some_iff] at hz
      obtain ⟨z', hz', rfl⟩ := hz
      have hv' : eval A env (.op (.cast sat d) [w] ty) = some (some (z'.map (A.cast d))) := by
        rw [unsqueeze_squeeze hy' hz' (sameAxes_set hax hsign) hsign]
        exact eval_cast.2 ⟨x, hx, rfl⟩
      exact ⟨hv', typed_new1 ht hv hv' (e1.trans e2) h3, rfl⟩
    · cases hr
  · cases hr

end Verif.Rewrite
