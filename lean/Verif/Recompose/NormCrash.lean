import Verif.Recompose.NormFound

/-! # When the match does not abort -/

namespace Verif.Recompose

open Verif.Rewrite

theorem MRes.bind_crash {α β : Type} {r : MRes α} {f : α → MRes β} (h : r.bind f = .crash) :
    r = .crash ∨ ∃ a, r = .ok a ∧ f a = .crash := by
  cases r with
  | fail => cases h
  | crash => exact .inl rfl
  | ok a => exact .inr ⟨a, rfl, h⟩

theorem Sub.trans {a b c : T} (h1 : Sub a b) (h2 : Sub b c) : Sub a c := by
  induction h2 with
  | refl => exact h1
  | un _ ih => exact .un ih
  | bil _ ih => exact .bil ih
  | bir _ ih => exact .bir ih
  | mean _ ih => exact .mean ih
  | layerNorml _ ih => exact .layerNorml ih
  | layerNormr _ ih => exact .layerNormr ih
  | rmsNorml _ ih => exact .rmsNorml ih
  | rmsNormr _ ih => exact .rmsNormr ih
  | gelu _ ih => exact .gelu ih

theorem Sub.eval {g : Bool → ℝ → ℝ} {env : ℕ → Tensor ℝ} {a b : T} (h : Sub a b) :
    ∀ {y : Tensor ℝ}, b.eval g env = some y → ∃ z, a.eval g env = some z := by
  induction h with
  | refl => exact fun h => ⟨_, h⟩
  | un _ ih =>
    intro y hy
    obtain ⟨p, hp, _⟩ := Option.bind_eq_some_iff.1 hy
    exact ih hp
  | bil _ ih =>
    intro y hy
    obtain ⟨p, hp, _⟩ := Option.bind_eq_some_iff.1 hy
    exact ih hp
  | bir _ ih =>
    intro y hy
    obtain ⟨p, hp, hy⟩ := Option.bind_eq_some_iff.1 hy
    obtain ⟨q, hq, hy⟩ := Option.bind_eq_some_iff.1 hy
    exact ih hq
  | mean _ ih =>
    intro y hy
    obtain ⟨p, hp, _⟩ := Option.bind_eq_some_iff.1 hy
    exact ih hp
  | layerNorml _ ih =>
    intro y hy
    obtain ⟨p, hp, _⟩ := Option.bind_eq_some_iff.1 hy
    exact ih hp
  | layerNormr _ ih =>
    intro y hy
    obtain ⟨p, hp, hy⟩ := Option.bind_eq_some_iff.1 hy
    obtain ⟨q, hq, hy⟩ := Option.bind_eq_some_iff.1 hy
    exact ih hq
  | rmsNorml _ ih =>
    intro y hy
    obtain ⟨p, hp, _⟩ := Option.bind_eq_some_iff.1 hy
    exact ih hp
  | rmsNormr _ ih =>
    intro y hy
    obtain ⟨p, hp, hy⟩ := Option.bind_eq_some_iff.1 hy
    obtain ⟨q, hq, hy⟩ := Option.bind_eq_some_iff.1 hy
    exact ih hq
  | gelu _ ih =>
    intro y hy
    obtain ⟨p, hp, _⟩ := Option.map_eq_some_iff.1 hy
    exact ih hp

/-- Every mean has the attribute `axes`. -/
def HasAxes (e : T) : Prop := ∀ x axes keep, Sub (.mean x axes keep) e → axes ≠ none

/-- No argument of the function is added to a mean. -/
def NoArgEps (I : Info) (e : T) : Prop := ∀ x axes keep k,
  Sub (.bi .add (.mean x axes keep) (.arg k)) e ∨ Sub (.bi .add (.arg k) (.mean x axes keep)) e → I.block k = false

/-- If the expression is a product with a quotient by a square root, its dividend is not known to be of rank 2 or more,
or of rank 1 and unknown length. -/
def DividendKnown (I : Info) (e : T) : Prop := ∀ p v q s,
  e = .bi .mul (.bi .div p (.un .sqrt v)) q ∨ e = .bi .mul q (.bi .div p (.un .sqrt v)) → I.shape p = some s →
  s = [] ∨ ∃ d, s = [some d]

theorem divOfOne_crash {I : Info} {p : T} (h : divOfOne I p = .crash) :
    ∃ s, I.shape p = some s ∧ ¬ (s = [] ∨ ∃ d, s = [some d]) := by
  unfold divOfOne at h
  split at h
  · cases h
  · split at h <;> cases h
  · rename_i hs; exact ⟨_, hs, by simp⟩
  · split at h
    · split at h <;> cases h
    · cases h
  · rename_i hs; exact ⟨_, hs, by simp⟩

theorem viaOne_crash {I : Info} {scale norm inv d one s : T} (h : viaOne I scale norm inv d one s = .crash) :
    (∃ v, s = .un .sqrt v) ∧ divOfOne I one = .crash := by
  unfold viaOne at h
  split at h
  · cases h
  · rename_i v hv
    rcases MRes.bind_crash h with h | ⟨_, _, h⟩
    · exact ⟨⟨v, asUn_some hv⟩, h⟩
    · cases h

theorem viaDiv_crash {scale norm d s : T} : viaDiv scale norm d s ≠ .crash := by
  unfold viaDiv
  split <;> simp

theorem viaRecip_crash {scale norm i d s : T} : viaRecip scale norm i d s ≠ .crash := by
  unfold viaRecip
  split <;> simp

theorem viaMul_crash {I : Info} {scale norm p q : T} (hd : DividendKnown I (.bi .mul p q)) :
    viaMul I scale norm p q ≠ .crash := by
  intro h
  have key : ∀ {r one s d : T}, r.asBi .div = some (one, s) → (∃ q', T.bi .mul p q = .bi .mul r q' ∨
      T.bi .mul p q = .bi .mul q' r) → viaOne I scale norm r d one s = .crash → False := by
    rintro r one s d ho ⟨q', hr⟩ h
    obtain ⟨⟨v, hv⟩, h⟩ := viaOne_crash h
    obtain ⟨t, ht, hn⟩ := divOfOne_crash h
    rw [asBi_some ho, hv] at hr
    exact hn (hd _ _ _ _ hr ht)
  unfold viaMul at h
  split at h
  · exact viaRecip_crash h
  split at h
  · exact viaRecip_crash h
  split at h
  · rename_i ho
    exact key ho ⟨_, .inl rfl⟩ h
  split at h
  · rename_i ho
    exact key ho ⟨_, .inr rfl⟩ h
  cases h

theorem group_crash {I : Info} {a b : T} (ha : DividendKnown I a) (hb : DividendKnown I b) : group I a b ≠ .crash := by
  intro h
  unfold group at h
  split at h
  · exact viaDiv_crash h
  split at h
  · exact viaDiv_crash h
  split at h
  · rename_i hm
    exact viaMul_crash (asBi_some hm ▸ ha) h
  split at h
  · rename_i hm
    exact viaMul_crash (asBi_some hm ▸ hb) h
  cases h

/-- The variance and the deviation are part of a recognised form. -/
theorem form_sub {I : Info} {d v n : T} (h : NormForm I d v n) : Sub d n ∧ Sub v n := by
  cases h with
  | div => exact ⟨.bil .refl, .bir (.un .refl)⟩
  | recipl => exact ⟨.bir .refl, .bil (.un (.un .refl))⟩
  | recipr => exact ⟨.bil .refl, .bir (.un (.un .refl))⟩
  | onel _ => exact ⟨.bir .refl, .bil (.bir (.un .refl))⟩
  | oner _ => exact ⟨.bil .refl, .bir (.bir (.un .refl))⟩

theorem suitable_crash {I : Info} {g : Bool → ℝ → ℝ} {env : ℕ → Tensor ℝ} (hI : I.Ok g env) {e x : T} {y : Tensor ℝ}
    (hy : e.eval g env = some y) (ha : HasAxes e) {axes : Option (List ℤ)} {keep : Bool}
    (hs : Sub (.mean x axes keep) e) {s : List (Option ℕ)} (hx : I.shape x = some s) :
    suitableAxis axes keep s.length ≠ .crash := by
  obtain ⟨m, hm⟩ := hs.eval hy
  obtain ⟨X, hX, hm⟩ := Option.bind_eq_some_iff.1 hm
  obtain ⟨R, hR, _⟩ := meanR_some.1 hm
  have hl : s.length = X.shape.length := (hI.shape _ _ _ hx hX).length_eq
  unfold suitableAxis
  split
  · cases axes with
    | none => exact absurd rfl (ha _ _ _ hs)
    | some l =>
      have : ∃ R', l.mapM (normAxis s.length) = some R' := by
        cases l with
        | nil => exact ⟨[], rfl⟩
        | cons z l =>
          rw [hl]
          exact ⟨R, hR⟩
      obtain ⟨R', hR'⟩ := this
      rw [Option.map_some, hR']
      simp only
      split <;> simp
  · simp

/-- The match does not abort. -/
theorem recomposeNorm_no_crash {I : Info} {g : Bool → ℝ → ℝ} {env : ℕ → Tensor ℝ} (hI : I.Ok g env) {a b : T}
    {y : Tensor ℝ} (hy : (T.bi .mul a b).eval g env = some y) (h1 : HasAxes (.bi .mul a b))
    (h2 : NoArgEps I (.bi .mul a b)) (h3 : DividendKnown I a) (h4 : DividendKnown I b) : recomposeNorm I a b ≠ .crash := by
  intro h
  rcases MRes.bind_crash h with h | ⟨G, hG, h⟩
  · exact group_crash h3 h4 h
  have hsub : Sub G.d (.bi .mul a b) ∧ Sub G.varEps (.bi .mul a b) := by
    rcases group_form hG with ⟨_, hf⟩ | ⟨_, hf⟩
    · exact ⟨.bil (form_sub hf).1, .bil (form_sub hf).2⟩
    · exact ⟨.bir (form_sub hf).1, .bir (form_sub hf).2⟩
  have key : ∀ {var eps : T} {r}, Sub var (.bi .mul a b) → var.asMean = some r →
      (∀ k, eps = .arg k → I.block k = false) → matchVar I G var eps r ≠ .crash := by
    rintro var eps ⟨dd, axes, keep⟩ hv hm hk h
    rw [asMean_some hm] at hv
    unfold matchVar at h
    simp only at h
    split at h
    · cases h
    split at h
    · rcases MRes.bind_crash h with h | ⟨ea, _, h⟩
      · cases eps with
        | arg k =>
          rw [epsilonAttr, hk k rfl] at h
          cases h
        | cst c => cases c <;> cases h
        | _ => cases h
      · split at h
        · cases h
        rename_i s hs
        rcases MRes.bind_crash h with h | ⟨ax, _, h⟩
        · exact suitable_crash hI hy h1 hv hs h
        · rcases MRes.bind_crash h with h | ⟨_, _, h⟩
          · unfold fullPattern at h
            split at h
            · cases h
            rename_i x1 m hd
            split at h
            · cases h
            rename_i x2 axes' keep' hm'
            split at h
            · rename_i hc
              rw [Bool.and_eq_true] at hc
              split at h
              · cases h
              rename_i s' hs'
              rcases MRes.bind_crash h with h | ⟨_, _, h⟩
              · have hd' := hsub.1
                rw [asBi_some hd, asMean_some hm', ← hI.same _ _ hc.1] at hd'
                unfold meanAxes at h
                split at h
                · cases h
                · rename_i hh
                  exact suitable_crash hI hy h1 (Sub.trans (.bir .refl) hd') hs' hh
                · cases h
              · cases h
            · cases h
          · cases h
    · cases h
  unfold matchVarEps at h
  split at h
  · cases h
  rename_i p q hpq
  have hs := hsub.2
  rw [asBi_some hpq] at hs
  split at h
  · rename_i r hr
    refine key (Sub.trans (.bil .refl) hs) hr (fun k hk => ?_) h
    obtain ⟨x, axes, keep⟩ := r
    rw [asMean_some hr, hk] at hs
    exact h2 _ _ _ _ (.inl hs)
  split at h
  · rename_i r hr
    refine key (Sub.trans (.bir .refl) hs) hr (fun k hk => ?_) h
    obtain ⟨x, axes, keep⟩ := r
    rw [asMean_some hr, hk] at hs
    exact h2 _ _ _ _ (.inr hs)
  · cases h

end Verif.Recompose
