import Verif.IndexExpr.Lemmas

namespace Verif.IndexExpr

variable {ρ : Nat → Int}

/-! ## No minimum or maximum appears from nowhere -/

theorem minMax_mkAff (simp : Aff → Option Int) (e : Aff) : (mkAff simp e).minMax? = none := by
  unfold mkAff; split <;> rfl

theorem minMax_select {c : PIE} {t f : IE} (ht : t.minMax? = none) (hf : f.minMax? = none) :
    (IE.select c t f).minMax? = none := by
  cases c with
  | lit b => cases b <;> simp [IE.select, ht, hf]
  | val p => rfl

theorem minMax_clamp {a lo hi : IE} (ha : a.minMax? = none) (hlo : lo.minMax? = none)
    (hhi : hi.minMax? = none) : (IE.clamp a lo hi).minMax? = none := by
  unfold IE.clamp
  split
  · split
    · exact hlo
    · split
      · exact hhi
      · exact ha
  · exact minMax_select hhi (minMax_select hlo ha)

theorem minMax_binaryOp {simp : Aff → Option Int} {prop awlb nA nB : Bool} {neutral : Int}
    {litF : Int → Int → Option Int} {affF : IE → IE → Option IE} {valF : Val → Val → Val}
    {a b e : IE} (ha : a.minMax? = none) (hb : b.minMax? = none)
    (haff : ∀ a b e, affF a b = some e → e.minMax? = none)
    (hval : ∀ u v, IE.minMax? (.val (valF u v)) = none)
    (h : binaryOp simp prop awlb nA nB neutral litF affF valF a b = some e) : e.minMax? = none := by
  unfold binaryOp at h
  simp only at h
  split at h
  · simp only [Option.some.injEq] at h; rw [← h]; exact hb
  · split at h
    · simp only [Option.some.injEq] at h; rw [← h]; exact ha
    · split at h
      · obtain ⟨n, -, rfl⟩ := Option.map_eq_some_iff.1 h
        rfl
      · split at h
        · exact haff _ _ _ h
        · split at h
          · have hp : propagate simp affF a b = some none := by
              unfold propagate; rw [ha, hb]
            rw [hp] at h
            simp only [Option.map_some, Option.getD_none, Option.some.injEq] at h
            rw [← h]; exact hval _ _
          · simp only [Option.some.injEq] at h
            rw [← h]; exact hval _ _

theorem minMax_gen (fl : ℚ → ℚ) (simp : Aff → Option Int) (κ : Nat → Option Int) (e : Expr)
    (h : e.noMinMax = true) {r : IE} (hg : e.gen fl simp κ = some r) : r.minMax? = none := by
  have hmap : ∀ (o : Option Aff) (g : Aff → Aff) e, (o.map fun x => mkAff simp (g x)) = some e →
      e.minMax? = none := by
    intro o g e he
    obtain ⟨x, -, rfl⟩ := Option.map_eq_some_iff.1 he
    exact minMax_mkAff simp _
  have bin : ∀ {a b : Expr} {f : IE → IE → Option IE},
      ((a.gen fl simp κ).bind fun x => (b.gen fl simp κ).bind fun y => f x y) = some r →
      ∃ x y, a.gen fl simp κ = some x ∧ b.gen fl simp κ = some y ∧ f x y = some r := by
    intro a b f hh
    obtain ⟨x, hx, hh⟩ := Option.bind_eq_some_iff.1 hh
    obtain ⟨y, hy, hh⟩ := Option.bind_eq_some_iff.1 hh
    exact ⟨x, y, hx, hy, hh⟩
  match e with
  | .lit n => simp only [Expr.gen, Option.some.injEq] at hg; rw [← hg]; rfl
  | .sym x =>
    simp only [Expr.gen, Option.some.injEq] at hg
    rw [← hg]; split <;> rfl
  | .leaf x =>
    simp only [Expr.gen, Option.some.injEq] at hg
    rw [← hg]; split <;> rfl
  | .add a b =>
    simp only [Expr.noMinMax, Bool.and_eq_true] at h
    rw [Expr.gen] at hg
    obtain ⟨x, y, hx, hy, hh⟩ := bin hg
    refine minMax_binaryOp (minMax_gen fl simp κ a h.1 hx) (minMax_gen fl simp κ b h.2 hy) ?_
      (fun _ _ => rfl) hh
    intro u v e he
    obtain ⟨p, -, he⟩ := Option.bind_eq_some_iff.1 he
    exact hmap _ _ _ he
  | .sub a b =>
    simp only [Expr.noMinMax, Bool.and_eq_true] at h
    rw [Expr.gen] at hg
    obtain ⟨x, y, hx, hy, hh⟩ := bin hg
    refine minMax_binaryOp (minMax_gen fl simp κ a h.1 hx) (minMax_gen fl simp κ b h.2 hy) ?_
      (fun _ _ => rfl) hh
    intro u v e he
    obtain ⟨p, -, he⟩ := Option.bind_eq_some_iff.1 he
    exact hmap _ (fun y => .add p (.mul y (-1))) _ he
  | .mul a b =>
    simp only [Expr.noMinMax, Bool.and_eq_true] at h
    rw [Expr.gen] at hg
    obtain ⟨x, y, hx, hy, hh⟩ := bin hg
    have haff : ∀ u v e, affMul simp u v = some e → e.minMax? = none := by
      intro u v e he
      obtain ⟨p, -, he⟩ := Option.bind_eq_some_iff.1 he
      obtain ⟨n, -, rfl⟩ := Option.map_eq_some_iff.1 he
      exact minMax_mkAff simp _
    unfold IE.mul at hh
    simp only at hh
    split at hh
    · exact minMax_binaryOp (minMax_gen fl simp κ b h.2 hy) (minMax_gen fl simp κ a h.1 hx) haff
        (fun _ _ => rfl) hh
    · exact minMax_binaryOp (minMax_gen fl simp κ a h.1 hx) (minMax_gen fl simp κ b h.2 hy) haff
        (fun _ _ => rfl) hh
  | .floorDiv a b =>
    simp only [Expr.noMinMax, Bool.and_eq_true] at h
    rw [Expr.gen] at hg
    obtain ⟨x, y, hx, hy, hh⟩ := bin hg
    refine minMax_binaryOp (minMax_gen fl simp κ a h.1 hx) (minMax_gen fl simp κ b h.2 hy) ?_
      (fun _ _ => rfl) hh
    intro u v e he
    obtain ⟨n, -, he⟩ := Option.bind_eq_some_iff.1 he
    split at he
    · exact hmap _ (fun x => .floorDiv x n) _ he
    · simp only [Option.some.injEq] at he; rw [← he]; rfl
  | .ceilDiv a b =>
    simp only [Expr.noMinMax, Bool.and_eq_true] at h
    rw [Expr.gen] at hg
    obtain ⟨x, y, hx, hy, hh⟩ := bin hg
    refine minMax_binaryOp (minMax_gen fl simp κ a h.1 hx) (minMax_gen fl simp κ b h.2 hy) ?_
      (fun _ _ => rfl) hh
    intro u v e he
    obtain ⟨n, -, he⟩ := Option.bind_eq_some_iff.1 he
    split at he
    · exact hmap _ (fun x => .ceilDiv x n) _ he
    · simp only [Option.some.injEq] at he; rw [← he]; rfl
  | .mod a b =>
    simp only [Expr.noMinMax, Bool.and_eq_true] at h
    rw [Expr.gen] at hg
    obtain ⟨x, y, hx, hy, hh⟩ := bin hg
    refine minMax_binaryOp (minMax_gen fl simp κ a h.1 hx) (minMax_gen fl simp κ b h.2 hy) ?_
      (fun _ _ => rfl) hh
    intro u v e he
    obtain ⟨n, -, he⟩ := Option.bind_eq_some_iff.1 he
    split at he
    · exact hmap _ (fun x => .mod x n) _ he
    · simp only [Option.some.injEq] at he; rw [← he]; rfl
  | .clamp a lo hi =>
    simp only [Expr.noMinMax, Bool.and_eq_true] at h
    rw [Expr.gen] at hg
    obtain ⟨x, hx, hg⟩ := Option.bind_eq_some_iff.1 hg
    obtain ⟨y, hy, hg⟩ := Option.bind_eq_some_iff.1 hg
    obtain ⟨z, hz, rfl⟩ := Option.map_eq_some_iff.1 hg
    exact minMax_clamp (minMax_gen fl simp κ a h.1.1 hx) (minMax_gen fl simp κ lo h.1.2 hy)
      (minMax_gen fl simp κ hi h.2 hz)
  | .select c t f =>
    simp only [Expr.noMinMax, Bool.and_eq_true] at h
    rw [Expr.gen] at hg
    obtain ⟨x, hx, hg⟩ := Option.bind_eq_some_iff.1 hg
    obtain ⟨y, hy, hg⟩ := Option.bind_eq_some_iff.1 hg
    obtain ⟨z, hz, rfl⟩ := Option.map_eq_some_iff.1 hg
    exact minMax_select (minMax_gen fl simp κ t h.1 hy) (minMax_gen fl simp κ f h.2 hz)
  | .min e es => simp [Expr.noMinMax] at h
  | .max e es => simp [Expr.noMinMax] at h

/-! ## Soundness of generated code -/

theorem lift2_eq {f : Int → Int → Option Int} {a b : Option Int} {r : Int}
    (h : lift2 f a b = some r) : ∃ x y, a = some x ∧ b = some y ∧ f x y = some r := by
  obtain ⟨x, hx, h⟩ := Option.bind_eq_some_iff.1 h
  obtain ⟨y, hy, h⟩ := Option.bind_eq_some_iff.1 h
  exact ⟨x, y, hx, hy, h⟩

/-- `z` is the value if there is one. -/
def Agree {α : Type} (o : Option α) (z : α) : Prop := ∀ r, o = some r → z = r

theorem agree_lift2 {f : Int → Int → Option Int} {a b : Option Int} {x y z : Int} (ha : Agree a x)
    (hb : Agree b y) (h : f x y = some z) : Agree (lift2 f a b) z := by
  intro r hr
  obtain ⟨u, v, hu, hv, hr⟩ := lift2_eq hr
  rw [← ha u hu, ← hb v hv, h] at hr
  simpa using hr

theorem clamp_total {a lo hi : IE} {x l h : Int} (ha : a.eval ρ = some x) (hlo : lo.eval ρ = some l)
    (hhi : hi.eval ρ = some h) :
    ∃ z, (IE.clamp a lo hi).eval ρ = some z ∧ (l ≤ h → z = max l (min x h)) := by
  by_cases hle : l ≤ h
  · exact ⟨_, clamp_eval ha hlo hhi hle, fun _ => rfl⟩
  · have : ∃ z, (IE.clamp a lo hi).eval ρ = some z := by
      unfold IE.clamp
      split
      · split
        · exact ⟨_, hlo⟩
        · split
          · exact ⟨_, hhi⟩
          · exact ⟨_, ha⟩
      · simp only
        have h1 := select_eval (cmp_eval .lt ha hlo) hlo ha
        exact ⟨_, select_eval (cmp_eval .gt h1 hhi) hhi h1⟩
    obtain ⟨z, hz⟩ := this
    exact ⟨z, hz, fun hc => absurd hc hle⟩

mutual
theorem gen_sound {fl : ℚ → ℚ} (hfl : IsDouble fl) {simp : Aff → Option Int} (hs : SimpOk simp)
    {κ : Nat → Option Int} (hκ : ∀ x n, κ x = some n → ρ x = n) (e : Expr) (hok : e.Ok ρ) :
    ∃ g z, e.gen fl simp κ = some g ∧ g.eval ρ = some z ∧ Agree (e.eval ρ) z := by
  match e with
  | .lit n => exact ⟨.lit n, n, by rw [Expr.gen], rfl, fun r h => by simpa [Expr.eval] using h⟩
  | .sym x =>
    refine ⟨_, ρ x, by rw [Expr.gen], ?_, fun r h => by simpa [Expr.eval] using h⟩
    cases hx : κ x with
    | none => simp [IE.eval, Aff.eval]
    | some n => simp [IE.eval, hκ x n hx]
  | .leaf x =>
    refine ⟨_, ρ x, by rw [Expr.gen], ?_, fun r h => by simpa [Expr.eval] using h⟩
    cases hx : κ x with
    | none => simp [IE.eval, Val.eval]
    | some n => simp [IE.eval, hκ x n hx]
  | .add a b =>
    rw [Expr.Ok] at hok
    obtain ⟨g, x, hg, hge, hx⟩ := gen_sound hfl hs hκ a hok.1
    obtain ⟨k, y, hk, hke, hy⟩ := gen_sound hfl hs hκ b hok.2
    obtain ⟨q, hq, hqe⟩ := add_eval hs hge hke
    exact ⟨q, _, by rw [Expr.gen, hg, hk]; exact hq, hqe, by rw [Expr.eval]; exact agree_lift2 hx hy rfl⟩
  | .sub a b =>
    rw [Expr.Ok] at hok
    obtain ⟨g, x, hg, hge, hx⟩ := gen_sound hfl hs hκ a hok.1
    obtain ⟨k, y, hk, hke, hy⟩ := gen_sound hfl hs hκ b hok.2.1
    obtain ⟨q, hq, hqe⟩ := sub_eval hs hge hke (minMax_gen fl simp κ b hok.2.2 hk)
    exact ⟨q, _, by rw [Expr.gen, hg, hk]; exact hq, hqe, by rw [Expr.eval]; exact agree_lift2 hx hy rfl⟩
  | .mul a b =>
    rw [Expr.Ok] at hok
    obtain ⟨g, x, hg, hge, hx⟩ := gen_sound hfl hs hκ a hok.1
    obtain ⟨k, y, hk, hke, hy⟩ := gen_sound hfl hs hκ b hok.2
    obtain ⟨q, hq, hqe⟩ := mul_eval hs hge hke
    exact ⟨q, _, by rw [Expr.gen, hg, hk]; exact hq, hqe, by rw [Expr.eval]; exact agree_lift2 hx hy rfl⟩
  | .floorDiv a b =>
    rw [Expr.Ok] at hok
    obtain ⟨g, x, hg, hge, hx⟩ := gen_sound hfl hs hκ a hok.1
    obtain ⟨k, y, hk, hke, hy⟩ := gen_sound hfl hs hκ b hok.2.1
    obtain ⟨u, v, hu, hv, h0, hd⟩ := hok.2.2
    have e1 := hx u hu; have e2 := hy v hv
    subst e1 e2
    obtain ⟨q, hq, hqe⟩ := floorDiv_eval hfl hs hge hke h0 hd
    exact ⟨q, _, by rw [Expr.gen, hg, hk]; exact hq, hqe, by
      rw [Expr.eval]; exact agree_lift2 hx hy (if_neg h0)⟩
  | .ceilDiv a b =>
    rw [Expr.Ok] at hok
    obtain ⟨g, x, hg, hge, hx⟩ := gen_sound hfl hs hκ a hok.1
    obtain ⟨k, y, hk, hke, hy⟩ := gen_sound hfl hs hκ b hok.2.1
    obtain ⟨u, v, hu, hv, h0, hd⟩ := hok.2.2
    have e1 := hx u hu; have e2 := hy v hv
    subst e1 e2
    obtain ⟨q, hq, hqe⟩ := ceilDiv_eval hfl hs hge hke h0 hd
    exact ⟨q, _, by rw [Expr.gen, hg, hk]; exact hq, hqe, by
      rw [Expr.eval]; exact agree_lift2 hx hy (if_neg h0)⟩
  | .mod a b =>
    rw [Expr.Ok] at hok
    obtain ⟨g, x, hg, hge, hx⟩ := gen_sound hfl hs hκ a hok.1
    obtain ⟨k, y, hk, hke, hy⟩ := gen_sound hfl hs hκ b hok.2.1
    obtain ⟨u, v, hu, hv, h0, hd⟩ := hok.2.2
    have e1 := hx u hu; have e2 := hy v hv
    subst e1 e2
    obtain ⟨q, hq, hqe⟩ := mod_eval hs hge hke hd h0
    exact ⟨q, _, by rw [Expr.gen, hg, hk]; exact hq, hqe, by
      rw [Expr.eval]; exact agree_lift2 hx hy (if_neg (by omega))⟩
  | .clamp a lo hi =>
    rw [Expr.Ok] at hok
    obtain ⟨g, x, hg, hge, hx⟩ := gen_sound hfl hs hκ a hok.1
    obtain ⟨k, l, hk, hke, hl⟩ := gen_sound hfl hs hκ lo hok.2.1
    obtain ⟨m, h, hm, hme, hh⟩ := gen_sound hfl hs hκ hi hok.2.2
    obtain ⟨z, hz, hzv⟩ := clamp_total hge hke hme
    refine ⟨_, z, by rw [Expr.gen, hg, hk, hm]; rfl, hz, fun r hr => ?_⟩
    rw [Expr.eval] at hr
    obtain ⟨x', hx', hr⟩ := Option.bind_eq_some_iff.1 hr
    obtain ⟨l', h', hl', hh', hr⟩ := lift2_eq hr
    rw [← hx x' hx', ← hl l' hl', ← hh h' hh'] at hr
    split at hr
    · simp at hr
    · simp only [Option.some.injEq] at hr
      rw [hzv (by omega), hr]
  | .select c t f =>
    rw [Expr.Ok] at hok
    obtain ⟨g, b, hg, hge, hb⟩ := pgen_sound hfl hs hκ c hok.1
    obtain ⟨k, x, hk, hke, hx⟩ := gen_sound hfl hs hκ t hok.2.1
    obtain ⟨m, y, hm, hme, hy⟩ := gen_sound hfl hs hκ f hok.2.2
    refine ⟨_, _, by rw [Expr.gen, hg, hk, hm]; rfl, select_eval hge hke hme, fun r hr => ?_⟩
    rw [Expr.eval] at hr
    obtain ⟨b', hb', hr⟩ := Option.bind_eq_some_iff.1 hr
    rw [← hb b' hb'] at hr
    cases b
    · simpa using hy r (by simpa using hr)
    · simpa using hx r (by simpa using hr)
  | .min e es =>
    rw [Expr.Ok] at hok
    obtain ⟨g, x, hg, hge, hx⟩ := gen_sound hfl hs hκ e hok.1
    obtain ⟨gs, xs, hgs, hgse, hxs⟩ := genList_sound hfl hs hκ es hok.2
    refine ⟨_, _, by rw [Expr.gen, hg, hgs]; rfl, min_eval hge hgse, fun r hr => ?_⟩
    rw [Expr.eval] at hr
    obtain ⟨x', hx', hr⟩ := Option.bind_eq_some_iff.1 hr
    obtain ⟨xs', hxs', rfl⟩ := Option.map_eq_some_iff.1 hr
    rw [hx x' hx', hxs xs' hxs']
  | .max e es =>
    rw [Expr.Ok] at hok
    obtain ⟨g, x, hg, hge, hx⟩ := gen_sound hfl hs hκ e hok.1
    obtain ⟨gs, xs, hgs, hgse, hxs⟩ := genList_sound hfl hs hκ es hok.2
    refine ⟨_, _, by rw [Expr.gen, hg, hgs]; rfl, max_eval hge hgse, fun r hr => ?_⟩
    rw [Expr.eval] at hr
    obtain ⟨x', hx', hr⟩ := Option.bind_eq_some_iff.1 hr
    obtain ⟨xs', hxs', rfl⟩ := Option.map_eq_some_iff.1 hr
    rw [hx x' hx', hxs xs' hxs']

theorem pgen_sound {fl : ℚ → ℚ} (hfl : IsDouble fl) {simp : Aff → Option Int} (hs : SimpOk simp)
    {κ : Nat → Option Int} (hκ : ∀ x n, κ x = some n → ρ x = n) (c : PExpr) (hok : c.Ok ρ) :
    ∃ g z, c.gen fl simp κ = some g ∧ g.eval ρ = some z ∧ Agree (c.eval ρ) z := by
  match c with
  | .cmp p a b =>
    rw [PExpr.Ok] at hok
    obtain ⟨g, x, hg, hge, hx⟩ := gen_sound hfl hs hκ a hok.1
    obtain ⟨k, y, hk, hke, hy⟩ := gen_sound hfl hs hκ b hok.2
    refine ⟨_, _, by rw [PExpr.gen, hg, hk]; rfl, cmp_eval p hge hke, fun r hr => ?_⟩
    rw [PExpr.eval] at hr
    obtain ⟨x', hx', hr⟩ := Option.bind_eq_some_iff.1 hr
    obtain ⟨y', hy', rfl⟩ := Option.map_eq_some_iff.1 hr
    rw [hx x' hx', hy y' hy']
  | .and a b =>
    rw [PExpr.Ok] at hok
    obtain ⟨g, x, hg, hge, hx⟩ := pgen_sound hfl hs hκ a hok.1
    obtain ⟨k, y, hk, hke, hy⟩ := pgen_sound hfl hs hκ b hok.2
    refine ⟨_, _, by rw [PExpr.gen, hg, hk]; rfl, and_eval hge hke, fun r hr => ?_⟩
    rw [PExpr.eval] at hr
    obtain ⟨x', hx', hr⟩ := Option.bind_eq_some_iff.1 hr
    obtain ⟨y', hy', rfl⟩ := Option.map_eq_some_iff.1 hr
    rw [hx x' hx', hy y' hy']
  | .or a b =>
    rw [PExpr.Ok] at hok
    obtain ⟨g, x, hg, hge, hx⟩ := pgen_sound hfl hs hκ a hok.1
    obtain ⟨k, y, hk, hke, hy⟩ := pgen_sound hfl hs hκ b hok.2
    refine ⟨_, _, by rw [PExpr.gen, hg, hk]; rfl, or_eval hge hke, fun r hr => ?_⟩
    rw [PExpr.eval] at hr
    obtain ⟨x', hx', hr⟩ := Option.bind_eq_some_iff.1 hr
    obtain ⟨y', hy', rfl⟩ := Option.map_eq_some_iff.1 hr
    rw [hx x' hx', hy y' hy']
  | .not a =>
    rw [PExpr.Ok] at hok
    obtain ⟨g, x, hg, hge, hx⟩ := pgen_sound hfl hs hκ a hok
    refine ⟨_, _, by rw [PExpr.gen, hg]; rfl, not_eval hge, fun r hr => ?_⟩
    rw [PExpr.eval] at hr
    obtain ⟨x', hx', rfl⟩ := Option.map_eq_some_iff.1 hr
    rw [hx x' hx']

theorem genList_sound {fl : ℚ → ℚ} (hfl : IsDouble fl) {simp : Aff → Option Int} (hs : SimpOk simp)
    {κ : Nat → Option Int} (hκ : ∀ x n, κ x = some n → ρ x = n) (l : List Expr) (hok : OkList ρ l) :
    ∃ gs zs, genList fl simp κ l = some gs ∧ ieEvals ρ gs = some zs ∧ Agree (evalList ρ l) zs := by
  match l with
  | [] =>
    exact ⟨[], [], by rw [genList], rfl, fun r hr => by simpa [evalList] using hr⟩
  | e :: es =>
    rw [OkList] at hok
    obtain ⟨g, x, hg, hge, hx⟩ := gen_sound hfl hs hκ e hok.1
    obtain ⟨gs, xs, hgs, hgse, hxs⟩ := genList_sound hfl hs hκ es hok.2
    refine ⟨g :: gs, x :: xs, by rw [genList, hg, hgs]; rfl, by simp [ieEvals, hge, hgse],
      fun r hr => ?_⟩
    rw [evalList] at hr
    obtain ⟨x', hx', hr⟩ := Option.bind_eq_some_iff.1 hr
    obtain ⟨xs', hxs', rfl⟩ := Option.map_eq_some_iff.1 hr
    rw [hx x' hx', hxs xs' hxs']
end

/-! ## Soundness of shape inference -/

/-- A literal is the value; a questionmark says nothing. -/
def Q.Sound {α : Type} (q : Q α) (x : α) : Prop := ∀ n, q = .lit n → n = x

theorem qBinaryOp_sound {nA nB : Bool} {neutral : Int} {litF : Int → Int → Option Int} {a b : Q Int}
    {x y r : Int} (ha : a.Sound x) (hb : b.Sound y) (hnA : nA = true → x = neutral → r = y)
    (hnB : nB = true → y = neutral → r = x) (hlit : litF x y = some r) :
    ∃ q, qBinaryOp nA nB neutral litF a b = some q ∧ q.Sound r := by
  unfold qBinaryOp
  split
  · rename_i u v
    have h1 := ha u rfl
    have h2 := hb v rfl
    subst h1 h2
    split
    · rename_i hc
      simp only [Bool.and_eq_true, beq_iff_eq] at hc
      exact ⟨_, rfl, fun n hn => by
        simp only [Q.lit.injEq] at hn; rw [← hn]; exact (hnA hc.1 hc.2).symm⟩
    · split
      · rename_i hc
        simp only [Bool.and_eq_true, beq_iff_eq] at hc
        exact ⟨_, rfl, fun n hn => by
          simp only [Q.lit.injEq] at hn; rw [← hn]; exact (hnB hc.1 hc.2).symm⟩
      · exact ⟨.lit r, by rw [hlit]; rfl, fun n hn => by simp only [Q.lit.injEq] at hn; exact hn.symm⟩
  · split
    · exact ⟨_, rfl, fun n hn => by simp at hn⟩
    · exact ⟨_, rfl, fun n hn => by simp at hn⟩
  · exact ⟨_, rfl, fun n hn => by simp at hn⟩

theorem qLits_sound {l : List (Q Int)} {xs ns : List Int} (h : List.Forall₂ Q.Sound l xs)
    (hl : qLits l = some ns) : ns = xs := by
  induction h generalizing ns with
  | nil => simp [qLits] at hl; exact hl
  | cons hq _ ih =>
    rename_i q x l xs _
    cases q with
    | qm => simp [qLits] at hl
    | lit n =>
      simp only [qLits, Option.map_eq_some_iff] at hl
      obtain ⟨as, has, rfl⟩ := hl
      rw [ih has, hq n rfl]

theorem qMin_sound {q : Q Int} {l : List (Q Int)} {x : Int} {xs : List Int} (h1 : q.Sound x)
    (h2 : List.Forall₂ Q.Sound l xs) : (qMin q l).Sound (least x xs) := by
  unfold qMin
  split
  · cases h2; exact h1
  · split
    · rename_i n ns hn
      have := qLits_sound (List.Forall₂.cons h1 h2) hn
      simp only [List.cons.injEq] at this
      obtain ⟨rfl, rfl⟩ := this
      intro m hm
      simp only [Q.lit.injEq] at hm
      rw [← hm, foldl_min_eq]
    · intro m hm; simp at hm

theorem qMax_sound {q : Q Int} {l : List (Q Int)} {x : Int} {xs : List Int} (h1 : q.Sound x)
    (h2 : List.Forall₂ Q.Sound l xs) : (qMax q l).Sound (greatest x xs) := by
  unfold qMax
  split
  · cases h2; exact h1
  · split
    · rename_i n ns hn
      have := qLits_sound (List.Forall₂.cons h1 h2) hn
      simp only [List.cons.injEq] at this
      obtain ⟨rfl, rfl⟩ := this
      intro m hm
      simp only [Q.lit.injEq] at hm
      rw [← hm, foldl_max_eq]
    · intro m hm; simp at hm

theorem sound_lit {α : Type} (x : α) : (Q.lit x).Sound x := fun n hn => by
  simp only [Q.lit.injEq] at hn; exact hn.symm

theorem sound_qm {α : Type} (x : α) : (Q.qm : Q α).Sound x := fun n hn => by simp at hn

theorem qMul_sound {a b : Q Int} {x y : Int} (ha : a.Sound x) (hb : b.Sound y) :
    ∃ q, qMul a b = some q ∧ q.Sound (x * y) := by
  unfold qMul
  split
  · exact qBinaryOp_sound hb ha (fun _ h => by rw [h, Int.mul_one]) (fun _ h => by rw [h, Int.one_mul])
      (by rw [Int.mul_comm])
  · exact qBinaryOp_sound ha hb (fun _ h => by rw [h, Int.one_mul]) (fun _ h => by rw [h, Int.mul_one])
      rfl

theorem qCmp_sound (p : Cmp) {a b : Q Int} {x y : Int} (ha : a.Sound x) (hb : b.Sound y) :
    (qCmp p a b).Sound (p.holds x y) := by
  unfold qCmp
  split
  · rename_i u v; rw [← ha u rfl, ← hb v rfl]; exact sound_lit _
  · exact sound_qm _

theorem qSelect_sound {c : Q Bool} {t f : Q Int} {b : Bool} {x y : Int} (hc : c.Sound b)
    (ht : t.Sound x) (hf : f.Sound y) : (qSelect c t f).Sound (if b then x else y) := by
  unfold qSelect
  split
  · rename_i u
    have := hc u rfl
    subst this
    cases u
    · simpa using hf
    · simpa using ht
  · exact sound_qm _

theorem qBinaryOp_total {nA nB : Bool} {neutral : Int} {litF : Int → Int → Option Int}
    (hlit : ∀ x y, ∃ z, litF x y = some z) (a b : Q Int) :
    ∃ q, qBinaryOp nA nB neutral litF a b = some q := by
  unfold qBinaryOp
  split
  · split
    · exact ⟨_, rfl⟩
    · split
      · exact ⟨_, rfl⟩
      · rename_i u v _ _
        obtain ⟨z, hz⟩ := hlit u v
        exact ⟨.lit z, by rw [hz]; rfl⟩
  · split <;> exact ⟨_, rfl⟩
  · exact ⟨_, rfl⟩

/-- The report is right if there is a value. -/
def QAgree {α : Type} (o : Option α) (q : Q α) : Prop := ∀ r, o = some r → q.Sound r

theorem qClamp_sound {a lo hi : Q Int} {x l h : Int} (ha : a.Sound x) (hlo : lo.Sound l)
    (hhi : hi.Sound h) (hle : l ≤ h) : (qClamp a lo hi).Sound (max l (min x h)) := by
  unfold qClamp
  split
  · rename_i u v w
    have h1 := ha u rfl; have h2 := hlo v rfl; have h3 := hhi w rfl
    subst h1 h2 h3
    intro n hn
    split at hn
    · simp only [Q.lit.injEq] at hn; omega
    · split at hn <;> simp only [Q.lit.injEq] at hn <;> omega
  · exact sound_qm _

theorem qAnd_sound {a b : Q Bool} {x y : Bool} (ha : a.Sound x) (hb : b.Sound y) :
    (qAnd a b).Sound (x && y) := by
  cases a with
  | lit u =>
    have := ha u rfl; subst this
    cases u
    · exact sound_lit _
    · simpa [qAnd] using hb
  | qm =>
    cases b with
    | lit v =>
      have := hb v rfl; subst this
      cases v
      · simpa [qAnd] using sound_lit false
      · simpa [qAnd] using ha
    | qm => exact sound_qm _

theorem qOr_sound {a b : Q Bool} {x y : Bool} (ha : a.Sound x) (hb : b.Sound y) :
    (qOr a b).Sound (x || y) := by
  cases a with
  | lit u =>
    have := ha u rfl; subst this
    cases u
    · simpa [qOr] using hb
    · exact sound_lit _
  | qm =>
    cases b with
    | lit v =>
      have := hb v rfl; subst this
      cases v
      · simpa [qOr] using ha
      · simpa [qOr] using sound_lit true
    | qm => exact sound_qm _

theorem qNot_sound {a : Q Bool} {x : Bool} (ha : a.Sound x) : (qNot a).Sound (!x) := by
  cases a with
  | lit u =>
    have := ha u rfl; subst this
    cases u <;> exact sound_lit _
  | qm => exact sound_qm _

mutual
theorem infer_sound {fl : ℚ → ℚ} (hfl : IsDouble fl)
    {κ : Nat → Option Int} (hκ : ∀ x n, κ x = some n → ρ x = n) (e : Expr) (hok : e.Ok ρ) :
    ∃ g, e.infer fl κ = some g ∧ QAgree (e.eval ρ) g := by
  match e with
  | .lit n =>
    refine ⟨.lit n, by rw [Expr.infer], fun r he => ?_⟩
    rw [Expr.eval] at he
    simp only [Option.some.injEq] at he
    rw [he]; exact sound_lit _
  | .sym x =>
    refine ⟨_, by rw [Expr.infer], fun r he => ?_⟩
    rw [Expr.eval] at he
    simp only [Option.some.injEq] at he
    cases hx : κ x with
    | none => exact sound_qm _
    | some n => rw [← he, hκ x n hx]; exact sound_lit _
  | .leaf x =>
    refine ⟨_, by rw [Expr.infer], fun r he => ?_⟩
    rw [Expr.eval] at he
    simp only [Option.some.injEq] at he
    cases hx : κ x with
    | none => exact sound_qm _
    | some n => rw [← he, hκ x n hx]; exact sound_lit _
  | .add a b =>
    rw [Expr.Ok] at hok
    obtain ⟨g, hg, hx⟩ := infer_sound hfl hκ a hok.1
    obtain ⟨k, hk, hy⟩ := infer_sound hfl hκ b hok.2
    obtain ⟨q, hq⟩ : ∃ q, qBinaryOp true true 0 (fun x y => some (x + y)) g k = some q :=
      qBinaryOp_total (fun x y => ⟨_, rfl⟩) g k
    refine ⟨q, by rw [Expr.infer, hg, hk]; exact hq, fun r he => ?_⟩
    rw [Expr.eval] at he
    obtain ⟨x, y, hx', hy', hr⟩ := lift2_eq he
    simp only [Option.some.injEq] at hr
    obtain ⟨q', hq', hqs⟩ : ∃ q, qBinaryOp true true 0 (fun x y => some (x + y)) g k = some q ∧ q.Sound r :=
      qBinaryOp_sound (hx x hx') (hy y hy') (fun _ h => by omega) (fun _ h => by omega) (by rw [hr])
    rw [hq] at hq'
    simp only [Option.some.injEq] at hq'
    rw [hq']; exact hqs
  | .sub a b =>
    rw [Expr.Ok] at hok
    obtain ⟨g, hg, hx⟩ := infer_sound hfl hκ a hok.1
    obtain ⟨k, hk, hy⟩ := infer_sound hfl hκ b hok.2.1
    obtain ⟨q, hq⟩ : ∃ q, qBinaryOp false true 0 (fun x y => some (x - y)) g k = some q :=
      qBinaryOp_total (fun x y => ⟨_, rfl⟩) g k
    refine ⟨q, by rw [Expr.infer, hg, hk]; exact hq, fun r he => ?_⟩
    rw [Expr.eval] at he
    obtain ⟨x, y, hx', hy', hr⟩ := lift2_eq he
    simp only [Option.some.injEq] at hr
    obtain ⟨q', hq', hqs⟩ : ∃ q, qBinaryOp false true 0 (fun x y => some (x - y)) g k = some q ∧ q.Sound r :=
      qBinaryOp_sound (hx x hx') (hy y hy') (fun h => by simp at h) (fun _ h => by omega) (by rw [hr])
    rw [hq] at hq'
    simp only [Option.some.injEq] at hq'
    rw [hq']; exact hqs
  | .mul a b =>
    rw [Expr.Ok] at hok
    obtain ⟨g, hg, hx⟩ := infer_sound hfl hκ a hok.1
    obtain ⟨k, hk, hy⟩ := infer_sound hfl hκ b hok.2
    obtain ⟨q, hq⟩ : ∃ q, qMul g k = some q := by
      unfold qMul
      split
      · exact qBinaryOp_total (fun x y => ⟨_, rfl⟩) _ _
      · exact qBinaryOp_total (fun x y => ⟨_, rfl⟩) _ _
    refine ⟨q, by rw [Expr.infer, hg, hk]; exact hq, fun r he => ?_⟩
    rw [Expr.eval] at he
    obtain ⟨x, y, hx', hy', hr⟩ := lift2_eq he
    simp only [Option.some.injEq] at hr
    obtain ⟨q', hq', hqs⟩ := qMul_sound (hx x hx') (hy y hy')
    rw [hq] at hq'
    simp only [Option.some.injEq] at hq'
    rw [hq', ← hr]; exact hqs
  | .floorDiv a b =>
    rw [Expr.Ok] at hok
    obtain ⟨g, hg, hx⟩ := infer_sound hfl hκ a hok.1
    obtain ⟨k, hk, hy⟩ := infer_sound hfl hκ b hok.2.1
    obtain ⟨x, y, hx', hy', h0, hd⟩ := hok.2.2
    obtain ⟨q, hq, hqs⟩ : ∃ q, qBinaryOp false true 1 (litFloorDiv fl) g k = some q ∧ q.Sound (floorQ x y) :=
      qBinaryOp_sound (hx x hx') (hy y hy') (fun h => by simp at h)
        (fun _ h => by rw [h, floorQ_one])
        (by unfold litFloorDiv; rw [if_neg h0, floor_double hfl x y h0 hd])
    refine ⟨q, by rw [Expr.infer, hg, hk]; exact hq, fun r he => ?_⟩
    rw [Expr.eval, hx', hy'] at he
    simp only [lift2, Option.bind_some, if_neg h0, Option.some.injEq] at he
    rw [← he]; exact hqs
  | .ceilDiv a b =>
    rw [Expr.Ok] at hok
    obtain ⟨g, hg, hx⟩ := infer_sound hfl hκ a hok.1
    obtain ⟨k, hk, hy⟩ := infer_sound hfl hκ b hok.2.1
    obtain ⟨x, y, hx', hy', h0, hd⟩ := hok.2.2
    obtain ⟨q, hq, hqs⟩ : ∃ q, qBinaryOp false true 1 (litCeilDiv fl) g k = some q ∧ q.Sound (ceilQ x y) :=
      qBinaryOp_sound (hx x hx') (hy y hy') (fun h => by simp at h)
        (fun _ h => by rw [h, ceilQ_one])
        (by unfold litCeilDiv; rw [if_neg h0, ceil_double hfl x y h0 hd])
    refine ⟨q, by rw [Expr.infer, hg, hk]; exact hq, fun r he => ?_⟩
    rw [Expr.eval, hx', hy'] at he
    simp only [lift2, Option.bind_some, if_neg h0, Option.some.injEq] at he
    rw [← he]; exact hqs
  | .mod a b =>
    rw [Expr.Ok] at hok
    obtain ⟨g, hg, hx⟩ := infer_sound hfl hκ a hok.1
    obtain ⟨k, hk, hy⟩ := infer_sound hfl hκ b hok.2.1
    obtain ⟨x, y, hx', hy', h0, hd⟩ := hok.2.2
    have h1 : ¬ y < 1 := by omega
    obtain ⟨q, hq, hqs⟩ : ∃ q, qBinaryOp false false 1 litMod g k = some q ∧ q.Sound (x % y) :=
      qBinaryOp_sound (hx x hx') (hy y hy') (fun h => by simp at h) (fun h => by simp at h)
        (by unfold litMod; rw [if_neg h1])
    refine ⟨q, by rw [Expr.infer, hg, hk]; exact hq, fun r he => ?_⟩
    rw [Expr.eval, hx', hy'] at he
    simp only [lift2, Option.bind_some, if_neg h1, Option.some.injEq] at he
    rw [← he]; exact hqs
  | .clamp a lo hi =>
    rw [Expr.Ok] at hok
    obtain ⟨g, hg, hx⟩ := infer_sound hfl hκ a hok.1
    obtain ⟨k, hk, hl⟩ := infer_sound hfl hκ lo hok.2.1
    obtain ⟨m, hm, hh⟩ := infer_sound hfl hκ hi hok.2.2
    refine ⟨_, by rw [Expr.infer, hg, hk, hm]; rfl, fun r hr => ?_⟩
    rw [Expr.eval] at hr
    obtain ⟨x', hx', hr⟩ := Option.bind_eq_some_iff.1 hr
    obtain ⟨l', h', hl', hh', hr⟩ := lift2_eq hr
    split at hr
    · simp at hr
    · simp only [Option.some.injEq] at hr
      rw [← hr]
      exact qClamp_sound (hx x' hx') (hl l' hl') (hh h' hh') (by omega)
  | .select c t f =>
    rw [Expr.Ok] at hok
    obtain ⟨g, hg, hb⟩ := pinfer_sound hfl hκ c hok.1
    obtain ⟨k, hk, hx⟩ := infer_sound hfl hκ t hok.2.1
    obtain ⟨m, hm, hy⟩ := infer_sound hfl hκ f hok.2.2
    refine ⟨_, by rw [Expr.infer, hg, hk, hm]; rfl, fun r hr => ?_⟩
    rw [Expr.eval] at hr
    obtain ⟨b', hb', hr⟩ := Option.bind_eq_some_iff.1 hr
    unfold qSelect
    split
    · rename_i u
      have := hb b' hb' u rfl
      subst this
      cases u
      · simpa using hy r (by simpa using hr)
      · simpa using hx r (by simpa using hr)
    · exact sound_qm _
  | .min e es =>
    rw [Expr.Ok] at hok
    obtain ⟨g, hg, hx⟩ := infer_sound hfl hκ e hok.1
    obtain ⟨gs, hgs, hxs⟩ := inferList_sound hfl hκ es hok.2
    refine ⟨_, by rw [Expr.infer, hg, hgs]; rfl, fun r hr => ?_⟩
    rw [Expr.eval] at hr
    obtain ⟨x', hx', hr⟩ := Option.bind_eq_some_iff.1 hr
    obtain ⟨xs', hxs', rfl⟩ := Option.map_eq_some_iff.1 hr
    exact qMin_sound (hx x' hx') (hxs xs' hxs')
  | .max e es =>
    rw [Expr.Ok] at hok
    obtain ⟨g, hg, hx⟩ := infer_sound hfl hκ e hok.1
    obtain ⟨gs, hgs, hxs⟩ := inferList_sound hfl hκ es hok.2
    refine ⟨_, by rw [Expr.infer, hg, hgs]; rfl, fun r hr => ?_⟩
    rw [Expr.eval] at hr
    obtain ⟨x', hx', hr⟩ := Option.bind_eq_some_iff.1 hr
    obtain ⟨xs', hxs', rfl⟩ := Option.map_eq_some_iff.1 hr
    exact qMax_sound (hx x' hx') (hxs xs' hxs')

theorem pinfer_sound {fl : ℚ → ℚ} (hfl : IsDouble fl)
    {κ : Nat → Option Int} (hκ : ∀ x n, κ x = some n → ρ x = n) (c : PExpr) (hok : c.Ok ρ) :
    ∃ g, c.infer fl κ = some g ∧ QAgree (c.eval ρ) g := by
  match c with
  | .cmp p a b =>
    rw [PExpr.Ok] at hok
    obtain ⟨g, hg, hx⟩ := infer_sound hfl hκ a hok.1
    obtain ⟨k, hk, hy⟩ := infer_sound hfl hκ b hok.2
    refine ⟨_, by rw [PExpr.infer, hg, hk]; rfl, fun r hr => ?_⟩
    rw [PExpr.eval] at hr
    obtain ⟨x', hx', hr⟩ := Option.bind_eq_some_iff.1 hr
    obtain ⟨y', hy', rfl⟩ := Option.map_eq_some_iff.1 hr
    exact qCmp_sound p (hx x' hx') (hy y' hy')
  | .and a b =>
    rw [PExpr.Ok] at hok
    obtain ⟨g, hg, hx⟩ := pinfer_sound hfl hκ a hok.1
    obtain ⟨k, hk, hy⟩ := pinfer_sound hfl hκ b hok.2
    refine ⟨_, by rw [PExpr.infer, hg, hk]; rfl, fun r hr => ?_⟩
    rw [PExpr.eval] at hr
    obtain ⟨x', hx', hr⟩ := Option.bind_eq_some_iff.1 hr
    obtain ⟨y', hy', rfl⟩ := Option.map_eq_some_iff.1 hr
    exact qAnd_sound (hx x' hx') (hy y' hy')
  | .or a b =>
    rw [PExpr.Ok] at hok
    obtain ⟨g, hg, hx⟩ := pinfer_sound hfl hκ a hok.1
    obtain ⟨k, hk, hy⟩ := pinfer_sound hfl hκ b hok.2
    refine ⟨_, by rw [PExpr.infer, hg, hk]; rfl, fun r hr => ?_⟩
    rw [PExpr.eval] at hr
    obtain ⟨x', hx', hr⟩ := Option.bind_eq_some_iff.1 hr
    obtain ⟨y', hy', rfl⟩ := Option.map_eq_some_iff.1 hr
    exact qOr_sound (hx x' hx') (hy y' hy')
  | .not a =>
    rw [PExpr.Ok] at hok
    obtain ⟨g, hg, hx⟩ := pinfer_sound hfl hκ a hok
    refine ⟨_, by rw [PExpr.infer, hg]; rfl, fun r hr => ?_⟩
    rw [PExpr.eval] at hr
    obtain ⟨x', hx', rfl⟩ := Option.map_eq_some_iff.1 hr
    exact qNot_sound (hx x' hx')

theorem inferList_sound {fl : ℚ → ℚ} (hfl : IsDouble fl)
    {κ : Nat → Option Int} (hκ : ∀ x n, κ x = some n → ρ x = n) (l : List Expr) (hok : OkList ρ l) :
    ∃ gs, inferList fl κ l = some gs ∧
      ∀ rs, evalList ρ l = some rs → List.Forall₂ Q.Sound gs rs := by
  match l with
  | [] =>
    refine ⟨[], by rw [inferList], fun r hr => ?_⟩
    simp only [evalList, Option.some.injEq] at hr
    rw [← hr]; exact .nil
  | e :: es =>
    rw [OkList] at hok
    obtain ⟨g, hg, hx⟩ := infer_sound hfl hκ e hok.1
    obtain ⟨gs, hgs, hxs⟩ := inferList_sound hfl hκ es hok.2
    refine ⟨g :: gs, by rw [inferList, hg, hgs]; rfl, fun r hr => ?_⟩
    rw [evalList] at hr
    obtain ⟨x', hx', hr⟩ := Option.bind_eq_some_iff.1 hr
    obtain ⟨xs', hxs', rfl⟩ := Option.map_eq_some_iff.1 hr
    exact .cons (hx x' hx') (hxs xs' hxs')
end

end Verif.IndexExpr
