import Verif.Recompose.NormLemmas

/-! # Recomposed normalisations compute the same -/

namespace Verif.Recompose

open Verif.Rewrite Verif.Decompose

/-- What is recorded of a shape is true of it. -/
def FitsShape : List (Option ℕ) → List ℕ → Prop := List.Forall₂ fun o d => ∀ n, o = some n → d = n

/-- What the compiler knows is true. -/
structure Info.Ok (I : Info) (g : Bool → ℝ → ℝ) (env : ℕ → Tensor ℝ) : Prop where
  same : ∀ e f, I.same e f = true → e = f
  shape : ∀ e s t, I.shape e = some s → e.eval g env = some t → FitsShape s t.shape

/-- An expression occurs in another one. -/
inductive Sub : T → T → Prop
  | refl {e} : Sub e e
  | un {e u f} : Sub e f → Sub e (.un u f)
  | bil {e b f f'} : Sub e f → Sub e (.bi b f f')
  | bir {e b f f'} : Sub e f' → Sub e (.bi b f f')
  | mean {e f axes keep} : Sub e f → Sub e (.mean f axes keep)
  | layerNorml {e f s a p} : Sub e f → Sub e (.layerNorm f s a p)
  | layerNormr {e f s a p} : Sub e s → Sub e (.layerNorm f s a p)
  | rmsNorml {e f s a p} : Sub e f → Sub e (.rmsNorm f s a p)
  | rmsNormr {e f s a p} : Sub e s → Sub e (.rmsNorm f s a p)
  | gelu {e f b} : Sub e f → Sub e (.gelu b f)

/-- Wherever a constant with the attribute `value` is added to a mean, it is the default of epsilon. -/
def EpsIsDefault (e : T) : Prop := ∀ x axes keep t,
  Sub (.bi .add (.mean x axes keep) (.cst (.dense t))) e ∨ Sub (.bi .add (.cst (.dense t)) (.mean x axes keep)) e →
    t.data = [epsDefault]

/-- The data of a normalisation or Gelu. -/
def T.data : T → T
  | .layerNorm x _ _ _ => x
  | .rmsNorm x _ _ _ => x
  | .gelu _ x => x
  | e => e

theorem MRes.bind_ok {α β : Type} {r : MRes α} {f : α → MRes β} {b : β} (h : r.bind f = .ok b) :
    ∃ a, r = .ok a ∧ f a = .ok b := by
  cases r with
  | fail => cases h
  | crash => cases h
  | ok a => exact ⟨a, rfl, h⟩

theorem asBi_some {b : NBi} {e p q : T} (h : e.asBi b = some (p, q)) : e = .bi b p q := by
  cases e <;> try cases h
  rename_i b' e f
  simp only [T.asBi] at h
  split at h
  · rename_i hb
    cases h
    rw [hb]
  · cases h

theorem asUn_some {u : NUn} {e p : T} (h : e.asUn u = some p) : e = .un u p := by
  cases e <;> try cases h
  rename_i b' e
  simp only [T.asUn] at h
  split at h
  · rename_i hb
    cases h
    rw [hb]
  · cases h

theorem asMean_some {e x : T} {axes : Option (List ℤ)} {keep : Bool} (h : e.asMean = some (x, axes, keep)) :
    e = .mean x axes keep := by
  cases e <;> try cases h
  rfl

/-- The forms of the quotient by the standard deviation. -/
inductive NormForm (I : Info) (d v : T) : T → Prop
  | div : NormForm I d v (.bi .div d (.un .sqrt v))
  | recipl : NormForm I d v (.bi .mul (.un .recip (.un .sqrt v)) d)
  | recipr : NormForm I d v (.bi .mul d (.un .recip (.un .sqrt v)))
  | onel {one} : divOfOne I one = .ok () → NormForm I d v (.bi .mul (.bi .div one (.un .sqrt v)) d)
  | oner {one} : divOfOne I one = .ok () → NormForm I d v (.bi .mul d (.bi .div one (.un .sqrt v)))

theorem viaDiv_form {I : Info} {scale norm d s : T} {g : Group} (hn : norm = .bi .div d s)
    (h : viaDiv scale norm d s = .ok g) : g.scale = scale ∧ NormForm I g.d g.varEps norm := by
  unfold viaDiv at h
  split at h
  · cases h
  · rename_i v hv
    cases h
    rw [hn, asUn_some hv]
    exact ⟨rfl, .div⟩

theorem viaRecip_form {scale norm inv d s : T} {g : Group} (h : viaRecip scale norm inv d s = .ok g) :
    g.scale = scale ∧ g.d = d ∧ s = .un .sqrt g.varEps := by
  unfold viaRecip at h
  split at h
  · cases h
  · rename_i v hv
    cases h
    exact ⟨rfl, rfl, asUn_some hv⟩

theorem viaOne_form {I : Info} {scale norm inv d one s : T} {g : Group} (h : viaOne I scale norm inv d one s = .ok g) :
    g.scale = scale ∧ g.d = d ∧ s = .un .sqrt g.varEps ∧ divOfOne I one = .ok () := by
  unfold viaOne at h
  split at h
  · cases h
  · rename_i v hv
    obtain ⟨⟨⟩, h1, h2⟩ := MRes.bind_ok h
    cases h2
    exact ⟨rfl, rfl, asUn_some hv, h1⟩

theorem viaMul_form {I : Info} {scale norm p q : T} {g : Group} (hn : norm = .bi .mul p q)
    (h : viaMul I scale norm p q = .ok g) : g.scale = scale ∧ NormForm I g.d g.varEps norm := by
  unfold viaMul at h
  split at h
  · rename_i s hs
    obtain ⟨h1, h2, h3⟩ := viaRecip_form h
    rw [hn, asUn_some hs, h3, ← h2]
    exact ⟨h1, .recipl⟩
  split at h
  · rename_i s hs
    obtain ⟨h1, h2, h3⟩ := viaRecip_form h
    rw [hn, asUn_some hs, h3, ← h2]
    exact ⟨h1, .recipr⟩
  split at h
  · rename_i one s hs
    obtain ⟨h1, h2, h3, h4⟩ := viaOne_form h
    rw [hn, asBi_some hs, h3, ← h2]
    exact ⟨h1, .onel h4⟩
  split at h
  · rename_i one s hs
    obtain ⟨h1, h2, h3, h4⟩ := viaOne_form h
    rw [hn, asBi_some hs, h3, ← h2]
    exact ⟨h1, .oner h4⟩
  · cases h

theorem group_form {I : Info} {a b : T} {g : Group} (h : group I a b = .ok g) :
    (b = g.scale ∧ NormForm I g.d g.varEps a) ∨ (a = g.scale ∧ NormForm I g.d g.varEps b) := by
  unfold group at h
  split at h
  · rename_i hs
    obtain ⟨h1, h2⟩ := viaDiv_form (I := I) (asBi_some hs) h
    exact .inl ⟨h1.symm, h2⟩
  split at h
  · rename_i hs
    obtain ⟨h1, h2⟩ := viaDiv_form (I := I) (asBi_some hs) h
    exact .inr ⟨h1.symm, h2⟩
  split at h
  · rename_i hs
    obtain ⟨h1, h2⟩ := viaMul_form (asBi_some hs) h
    exact .inl ⟨h1.symm, h2⟩
  split at h
  · rename_i hs
    obtain ⟨h1, h2⟩ := viaMul_form (asBi_some hs) h
    exact .inr ⟨h1.symm, h2⟩
  · cases h

/-! ### Axes -/

theorem scan_found {a i r : ℕ} : ∀ {bs : List Bool}, scanAxes (some a) i bs = some (some r) → r = a ∧ ∀ b ∈ bs, b = true
  | [], h => by
    simp only [scanAxes, Option.some.injEq] at h
    exact ⟨h.symm, by simp⟩
  | b :: bs, h => by
    rw [scanAxes] at h
    split at h
    · rename_i hb
      obtain ⟨h1, h2⟩ := scan_found h
      exact ⟨h1, by simpa [hb] using h2⟩
    · cases h

theorem scan_none {r : ℕ} : ∀ {i : ℕ} {bs : List Bool}, scanAxes none i bs = some (some r) →
    i ≤ r ∧ r < i + bs.length ∧ ∀ k < bs.length, bs.getD k false = true ↔ r ≤ i + k
  | i, [], h => by simp [scanAxes] at h
  | i, true :: bs, h => by
    rw [scanAxes, if_pos rfl] at h
    obtain ⟨rfl, h2⟩ := scan_found h
    refine ⟨le_rfl, by simp, fun k hk => ?_⟩
    constructor
    · intro _; omega
    · intro _
      cases k with
      | zero => rfl
      | succ k =>
        simp only [List.length_cons, Nat.add_lt_add_iff_right] at hk
        rw [List.getD_cons_succ, List.getD_eq_getElem _ _ hk]
        exact h2 _ (List.getElem_mem hk)
  | i, false :: bs, h => by
    rw [scanAxes, if_neg (by simp)] at h
    obtain ⟨h1, h2, h3⟩ := scan_none h
    refine ⟨by omega, by simp only [List.length_cons]; omega, fun k hk => ?_⟩
    cases k with
    | zero => simp; omega
    | succ k =>
      simp only [List.length_cons, Nat.add_lt_add_iff_right] at hk
      rw [List.getD_cons_succ, h3 k hk]
      omega

/-- The axes of a suitable reduction are the last ones. -/
theorem suitableAxis_ok {axes : Option (List ℤ)} {keep : Bool} {rank a : ℕ} (h : suitableAxis axes keep rank = .ok a) :
    keep = true ∧ ∃ R, redAxes rank axes false = some R ∧ From a rank R := by
  unfold suitableAxis at h
  split at h
  · rename_i hk
    refine ⟨hk, ?_⟩
    split at h
    · cases h
    · cases h
    · rename_i R hR
      obtain ⟨l, rfl, hl⟩ := Option.map_eq_some_iff.1 hR
      split at h
      · rename_i a' ha
        cases h
        obtain ⟨-, h2, h3⟩ := scan_none ha
        simp only [List.length_map, List.length_range, zero_add] at h2 h3
        have hF : From a rank R := by
          refine ⟨h2, fun k hk => ?_⟩
          rw [← h3 k hk, List.getD_eq_getElem _ _ (by simpa using hk)]
          simp
        refine ⟨R, ?_, hF⟩
        cases l with
        | nil =>
          simp at hl
          subst hl
          exact absurd ((hF.2 a h2).2 le_rfl) (by simp)
        | cons b l => exact hl
      · cases h
  · cases h

/-! ### The match -/

theorem divOfOne_ok {I : Info} {g : Bool → ℝ → ℝ} {env : ℕ → Tensor ℝ} {one : T} {O : Tensor ℝ} (hI : I.Ok g env)
    (h : divOfOne I one = .ok ()) (hO : one.eval g env = some O) : IsSc O.shape ∧ O.one = 1 := by
  have key : isLitOne one = true → IsSc O.shape → O.one = 1 := by
    intro hl hs
    cases one <;> try cases hl
    rename_i c
    cases c with
    | float v => cases hl
    | dense t =>
      have : t = O := by simpa [T.eval, Cst.tensor] using hO
      subst this
      have hl' : t.data.headD 0 = 1 := of_decide_eq_true hl
      have hd := sc_data hs
      rw [hd] at hl'
      exact hl'
  unfold divOfOne at h
  split at h
  · cases h
  · rename_i hs
    have hf := hI.shape _ _ _ hs hO
    have hn : O.shape = [] := by cases hO' : O.shape with
      | nil => rfl
      | cons => rw [hO'] at hf; cases hf
    split at h
    · rename_i hl
      exact ⟨.inl hn, key hl (.inl hn)⟩
    · cases h
  · cases h
  · rename_i d hs
    have hf := hI.shape _ _ _ hs hO
    split at h
    · rename_i hd
      split at h
      · rename_i hl
        have hn : O.shape = [1] := by
          cases hO' : O.shape with
          | nil => rw [hO'] at hf; cases hf
          | cons c l =>
            rw [hO'] at hf
            cases hf with
            | cons h1 h2 =>
              cases h2
              rw [h1 d rfl, hd]
        exact ⟨.inr hn, key hl (.inr hn)⟩
      · cases h
    · cases h
  · cases h

theorem isScalarTensor_ok {I : Info} {g : Bool → ℝ → ℝ} {env : ℕ → Tensor ℝ} {e : T} {E : Tensor ℝ} (hI : I.Ok g env)
    (h : isScalarTensor I e = true) (hE : e.eval g env = some E) : IsSc E.shape := by
  unfold isScalarTensor at h
  split at h
  · rename_i hs
    have hf := hI.shape _ _ _ hs hE
    cases hO' : E.shape with
    | nil => exact .inl rfl
    | cons => rw [hO'] at hf; cases hf
  · rename_i hs
    have hf := hI.shape _ _ _ hs hE
    cases hO' : E.shape with
    | nil => rw [hO'] at hf; cases hf
    | cons c l =>
      rw [hO'] at hf
      cases hf with
      | cons h1 h2 =>
        cases h2
        rw [h1 1 rfl]
        exact .inr rfl
  · cases h

theorem eval_bi {g : Bool → ℝ → ℝ} {env : ℕ → Tensor ℝ} {b : NBi} {e f : T} {y : Tensor ℝ}
    (h : (T.bi b e f).eval g env = some y) :
    ∃ p q, e.eval g env = some p ∧ f.eval g env = some q ∧ nbinary b p q = some y := by
  obtain ⟨p, hp, h⟩ := Option.bind_eq_some_iff.1 h
  obtain ⟨q, hq, h⟩ := Option.bind_eq_some_iff.1 h
  exact ⟨p, q, hp, hq, h⟩

theorem eval_un {g : Bool → ℝ → ℝ} {env : ℕ → Tensor ℝ} {u : NUn} {e : T} {y : Tensor ℝ}
    (h : (T.un u e).eval g env = some y) : ∃ p, e.eval g env = some p ∧ nunary u p = some y :=
  Option.bind_eq_some_iff.1 h

theorem form_eval {I : Info} {g : Bool → ℝ → ℝ} {env : ℕ → Tensor ℝ} (hI : I.Ok g env) {d v norm : T}
    (hf : NormForm I d v norm) {N : Tensor ℝ} (hN : norm.eval g env = some N) :
    ∃ D V, d.eval g env = some D ∧ v.eval g env = some V ∧
      (V.shape ≠ [] → bshape D.shape V.shape = some D.shape → IsNorm D V N) := by
  cases hf with
  | div =>
    obtain ⟨D, S, hD, hS, h⟩ := eval_bi hN
    obtain ⟨V, hV, hS⟩ := eval_un hS
    exact ⟨D, V, hD, hV, fun _ hb => isNorm_div hb hS h⟩
  | recipl =>
    obtain ⟨R, D, hR, hD, h⟩ := eval_bi hN
    obtain ⟨S, hS, hR⟩ := eval_un hR
    obtain ⟨V, hV, hS⟩ := eval_un hS
    exact ⟨D, V, hD, hV, fun _ hb => isNorm_recip hb hS hR (by rw [nmul_comm]; exact h)⟩
  | recipr =>
    obtain ⟨D, R, hD, hR, h⟩ := eval_bi hN
    obtain ⟨S, hS, hR⟩ := eval_un hR
    obtain ⟨V, hV, hS⟩ := eval_un hS
    exact ⟨D, V, hD, hV, fun _ hb => isNorm_recip hb hS hR h⟩
  | onel h1 =>
    obtain ⟨R, D, hR, hD, h⟩ := eval_bi hN
    obtain ⟨O, S, hO, hS, hR⟩ := eval_bi hR
    obtain ⟨V, hV, hS⟩ := eval_un hS
    obtain ⟨g1, g2⟩ := divOfOne_ok hI h1 hO
    refine ⟨D, V, hD, hV, fun hne hb => isNorm_recip hb hS (one_div_recip g1 g2 ?_ hR) (by rw [nmul_comm]; exact h)⟩
    rw [(nunary_some.1 hS).2]
    exact hne
  | oner h1 =>
    obtain ⟨D, R, hD, hR, h⟩ := eval_bi hN
    obtain ⟨O, S, hO, hS, hR⟩ := eval_bi hR
    obtain ⟨V, hV, hS⟩ := eval_un hS
    obtain ⟨g1, g2⟩ := divOfOne_ok hI h1 hO
    refine ⟨D, V, hD, hV, fun hne hb => isNorm_recip hb hS (one_div_recip g1 g2 ?_ hR) h⟩
    rw [(nunary_some.1 hS).2]
    exact hne

theorem fits_length {s : List (Option ℕ)} {t : List ℕ} (h : FitsShape s t) : s.length = t.length := h.length_eq

/-- The conditions of the match for the variance. -/
theorem matchVar_ok {I : Info} {G : Group} {var eps e' : T} {r : T × Option (List ℤ) × Bool}
    (h : matchVar I G var eps r = .ok e') : ∃ d1 d2 ea s a x, r.1 = .bi .mul d1 d2 ∧ I.same G.d d1 = true ∧
      I.same G.d d2 = true ∧ isScalarTensor I eps = true ∧ epsilonAttr I eps = .ok ea ∧ I.shape r.1 = some s ∧
      suitableAxis r.2.1 r.2.2 s.length = .ok a ∧ fullPattern I a G.d = .ok x ∧ e' = normOp G a ea x := by
  obtain ⟨dd, axes, keep⟩ := r
  unfold matchVar at h
  simp only at h
  split at h
  · cases h
  rename_i d1 d2 hdd
  split at h
  · rename_i hc
    simp only [Bool.and_eq_true] at hc
    obtain ⟨ea, hea, h⟩ := MRes.bind_ok h
    split at h
    · cases h
    rename_i s hs
    obtain ⟨a, ha, h⟩ := MRes.bind_ok h
    obtain ⟨x, hx, h⟩ := MRes.bind_ok h
    cases h
    exact ⟨d1, d2, ea, s, a, x, asBi_some hdd, hc.1.1.1.1.1.1, hc.1.1.1.1.1.2, hc.2, hea, hs, ha, hx, rfl⟩
  · cases h

theorem fullPattern_some {I : Info} {a : ℕ} {d x : T} (h : fullPattern I a d = .ok (some x)) :
    ∃ x2 axes keep s, d = .bi .sub x (.mean x2 axes keep) ∧ I.same x x2 = true ∧ I.shape x = some s ∧
      suitableAxis axes keep s.length = .ok a := by
  unfold fullPattern at h
  split at h
  · cases h
  rename_i x1 m hd
  split at h
  · cases h
  rename_i x2 axes keep hm
  split at h
  · rename_i hc
    rw [Bool.and_eq_true] at hc
    split at h
    · cases h
    rename_i s hs
    obtain ⟨b, hb, h⟩ := MRes.bind_ok h
    cases b with
    | false => cases h
    | true =>
      cases h
      refine ⟨x2, axes, keep, s, by rw [asBi_some hd, asMean_some hm], hc.1, hs, ?_⟩
      unfold meanAxes at hb
      split at hb
      · cases hb
      · cases hb
      · rename_i a' ha
        simp only [MRes.ok.injEq, decide_eq_true_eq] at hb
        rw [ha, hb]
  · cases h

/-- Epsilon is the number that the replacement uses. -/
theorem eps_ok {I : Info} {g : Bool → ℝ → ℝ} {env : ℕ → Tensor ℝ} {eps : T} {ea : Option ℝ} {E : Tensor ℝ}
    (h : epsilonAttr I eps = .ok ea) (hE : eps.eval g env = some E) (hs : IsSc E.shape)
    (hd : ∀ t, eps = .cst (.dense t) → t.data = [epsDefault]) : E.one = ea.getD epsDefault := by
  cases eps with
  | cst c =>
    cases c with
    | float v =>
      cases h
      have : E = build [] fun _ => v := by simpa [T.eval, Cst.tensor] using hE.symm
      rw [this]
      rfl
    | dense t =>
      cases h
      have : E = t := by simpa [T.eval, Cst.tensor] using hE.symm
      have := hd t rfl
      subst E
      rw [Tensor.one, this]
      rfl
  | arg k =>
    simp only [epsilonAttr] at h
    split at h <;> cases h
  | _ => cases h

theorem recomposeNorm_sound {I : Info} {g : Bool → ℝ → ℝ} {env : ℕ → Tensor ℝ} (hI : I.Ok g env) {a b e' : T}
    (h : recomposeNorm I a b = .ok e') (hd : EpsIsDefault (.bi .mul a b)) {y : Tensor ℝ}
    (hy : (T.bi .mul a b).eval g env = some y)
    (hsh : ∀ X, e'.data.eval g env = some X → y.shape = X.shape) : e'.eval g env = some y := by
  obtain ⟨G, hG, hm⟩ := MRes.bind_ok h
  -- the quotient and the scale
  obtain ⟨norm, N, S, hsub, hf, hN, hS, hyN⟩ : ∃ norm N S, Sub norm (.bi .mul a b) ∧ NormForm I G.d G.varEps norm ∧
      norm.eval g env = some N ∧ G.scale.eval g env = some S ∧ nbinary .mul N S = some y := by
    obtain ⟨A, B, hA, hB, hAB⟩ := eval_bi hy
    rcases group_form hG with ⟨h1, h2⟩ | ⟨h1, h2⟩
    · exact ⟨a, A, B, .bil .refl, h2, hA, by rw [← h1]; exact hB, hAB⟩
    · exact ⟨b, B, A, .bir .refl, h2, hB, by rw [← h1]; exact hA, by rw [nmul_comm]; exact hAB⟩
  obtain ⟨D, V, hD, hV, hnorm⟩ := form_eval hI hf hN
  have hsubV : Sub G.varEps norm := by
    cases hf with
    | div => exact .bir (.un .refl)
    | recipl => exact .bil (.un (.un .refl))
    | recipr => exact .bir (.un (.un .refl))
    | onel => exact .bil (.bir (.un .refl))
    | oner => exact .bir (.bir (.un .refl))
  -- the variance and epsilon
  obtain ⟨var, eps, r, hve, hvar, hmv⟩ : ∃ var eps r, (G.varEps = .bi .add var eps ∨ G.varEps = .bi .add eps var) ∧
      var = .mean r.1 r.2.1 r.2.2 ∧ matchVar I G var eps r = .ok e' := by
    unfold matchVarEps at hm
    split at hm
    · cases hm
    rename_i p q hpq
    split at hm
    · rename_i r hr
      exact ⟨p, q, r, .inl (asBi_some hpq), asMean_some hr, hm⟩
    split at hm
    · rename_i r hr
      exact ⟨q, p, r, .inr (asBi_some hpq), asMean_some hr, hm⟩
    · cases hm
  obtain ⟨d1, d2, ea, s, ax, x, hdd, hs1, hs2, hsc, hea, hshape, hax, hfull, rfl⟩ := matchVar_ok hmv
  have e1 := hI.same _ _ hs1
  have e2 := hI.same _ _ hs2
  rw [← e1, ← e2] at hdd
  have subTrans : ∀ {e f k : T}, Sub e f → Sub f k → Sub e k := by
    intro e f k h1 h2
    induction h2 with
    | refl => exact h1
    | un _ ih => exact .un ih
    | bil _ ih => exact .bil ih
    | bir _ ih => exact .bir ih
    | mean _ ih => exact .mean ih
    | layerNorml _ ih => exact .layerNorml ih
    | layerNormr _ ih => exact .layerNormr ih
    | rmsNorml _ ih => exact .rmsNorml ih
    | rmsNormr _ ih => exact .rmsNormr ih
    | gelu _ ih => exact .gelu ih
  obtain ⟨W, E, hW, hE, hadd⟩ : ∃ W E, var.eval g env = some W ∧ eps.eval g env = some E ∧
      (nbinary .add W E = some V ∨ nbinary .add E W = some V) := by
    rcases hve with h1 | h1
    · rw [h1] at hV
      obtain ⟨p, q, hp, hq, hpq⟩ := eval_bi hV
      exact ⟨p, q, hp, hq, .inl hpq⟩
    · rw [h1] at hV
      obtain ⟨p, q, hp, hq, hpq⟩ := eval_bi hV
      exact ⟨q, p, hq, hp, .inr hpq⟩
  have hEs := isScalarTensor_ok hI hsc hE
  have heps : E.one = ea.getD epsDefault := eps_ok hea hE hEs fun t ht => by
    refine hd r.1 r.2.1 r.2.2 t ?_
    rw [ht, hvar] at hve
    rcases hve with h1 | h1
    · exact .inl (by rw [← h1]; exact subTrans hsubV hsub)
    · exact .inr (by rw [← h1]; exact subTrans hsubV hsub)
  rw [hvar] at hW
  obtain ⟨DD, hDD, hW⟩ := Option.bind_eq_some_iff.1 hW
  obtain ⟨hk, R, hR, hF⟩ := suitableAxis_ok hax
  have hlen := fits_length (hI.shape _ _ _ hshape hDD)
  rw [hdd] at hDD
  obtain ⟨p, q, hp, hq, hpq⟩ := eval_bi hDD
  rw [hD] at hp hq
  cases hp
  cases hq
  obtain ⟨t, ht, -, hDDb⟩ := nbinary_some.1 hpq
  rw [bshape_self] at ht
  cases ht
  have hDDs : DD.shape = D.shape := by rw [hDDb]; rfl
  rw [hlen, hDDs] at hR hF
  have hDDg : DD = build D.shape fun i => (D.get i) ^ 2 := by
    rw [hDDb]
    refine build_congr fun i hi => ?_
    rw [bidx_self hi, sq]
    rfl
  obtain ⟨R', hR', -, hWb⟩ := meanR_some.1 hW
  rw [hDDs, hR] at hR'
  cases hR'
  rw [hk] at hWb
  have hWs : W.shape = project R true 1 D.shape := by rw [hWb, ← hDDs]; rfl
  have hDne : D.shape ≠ [] := by
    intro hc
    have := hF.1
    simp [hc] at this
  have hWne : W.shape ≠ [] := by
    intro hc
    have := congrArg List.length hc
    rw [hWs, project_length] at this
    exact hDne (List.length_eq_zero_iff.1 this)
  have hVs : V.shape = W.shape := by
    rcases hadd with ha | ha
    · obtain ⟨s', hs', -, rfl⟩ := nbinary_some.1 ha
      rw [bshape_comm, bshape_sc hEs (.inr hWne)] at hs'
      cases hs'
      rfl
    · obtain ⟨s', hs', -, rfl⟩ := nbinary_some.1 ha
      rw [bshape_sc hEs (.inr hWne)] at hs'
      cases hs'
      rfl
  have hNorm := hnorm (by rw [hVs]; exact hWne) (by rw [hVs, hWs]; exact bshape_project _ _)
  cases x with
  | none =>
    have hXs : y.shape = D.shape := hsh D hD
    show (G.d.eval g env).bind _ = _
    rw [hD, Option.bind_some, hS, Option.bind_some]
    refine normalize_core (D := D) (V := W) (E := E) (N := V) (R := R) hF ?_ hadd ?_ hEs heps hNorm hyN hXs
    · exact eq_build rfl fun i _ => by rw [sub_zero]
    · rw [hWb, hDDg]
      congr 1
      exact build_congr fun i _ => by rw [sub_zero]
  | some x =>
    obtain ⟨x2, axes2, keep2, s2, hds, hsx, hxs, hax2⟩ := fullPattern_some hfull
    have e3 := hI.same _ _ hsx
    subst e3
    rw [hds] at hD
    obtain ⟨X, M, hX, hM, hXM⟩ := eval_bi hD
    have hXs : y.shape = X.shape := hsh X hX
    obtain ⟨X', hX', hM⟩ := Option.bind_eq_some_iff.1 hM
    rw [hX] at hX'
    cases hX'
    obtain ⟨hk2, R2, hR2, hF2⟩ := suitableAxis_ok hax2
    have hlen2 := fits_length (hI.shape _ _ _ hxs hX)
    rw [hlen2] at hR2 hF2
    obtain ⟨R', hR', -, hMb⟩ := meanR_some.1 hM
    rw [hR2] at hR'
    cases hR'
    rw [hk2] at hMb
    obtain ⟨s', hs', -, hDb⟩ := nbinary_some.1 hXM
    have hMs : M.shape = project R2 true 1 X.shape := by rw [hMb]; rfl
    rw [hMs, bshape_project] at hs'
    cases hs'
    have hDg : D = build X.shape fun i => X.get i - avg (row X ax i) := by
      rw [hDb]
      refine build_congr fun i hi => ?_
      rw [bidx_self hi, hMb, mean_get hF2 hi]
      rfl
    have hDs : D.shape = X.shape := by rw [hDb]; rfl
    show (x.eval g env).bind _ = _
    rw [hX, Option.bind_some, hS, Option.bind_some]
    rw [hDs] at hF
    refine normalize_core (D := D) (V := W) (E := E) (N := V) (R := R) hF hDg hadd ?_ hEs heps hNorm hyN hXs
    rw [hWb, hDDg, hDs]
    congr 1
    exact build_congr fun i hi => by rw [hDg, get_build _ hi]

end Verif.Recompose
