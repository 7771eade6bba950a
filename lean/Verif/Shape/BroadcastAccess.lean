import Verif.Shape.BroadcastLemmas
import Verif.Base.Opt

namespace Verif.Shape
open Verif.IndexExpr

variable {κ : Nat → Option Int} {ρ : Nat → Int}

theorem bcastDims_of_some {uni : Bool} : ∀ {a b c : List Expr}, bcastDims κ uni a b = some c →
    ∀ (j : Nat) (x y : Expr), a[j]? = some x → b[j]? = some y →
      ∃ z, c[j]? = some z ∧ bcastDim κ uni x y = some z
  | [], _, _, _, _, _, _, hx, _ => by simp at hx
  | _ :: _, [], _, _, _, _, _, _, hy => by simp at hy
  | a :: as, b :: bs, c, h, j, x, y, hx, hy => by
    rw [bcastDims] at h
    cases hz : bcastDim κ uni a b with
    | none => rw [hz] at h; simp at h
    | some z =>
      cases hr : bcastDims κ uni as bs with
      | none => rw [hz, hr] at h; simp at h
      | some cs =>
        rw [hz, hr] at h
        simp at h
        subst h
        cases j with
        | zero => simp at hx hy; subst hx hy; exact ⟨z, by simp, hz⟩
        | succ j => simpa using bcastDims_of_some hr j x y (by simpa using hx) (by simpa using hy)

/-- If the fold succeeds, every extent known not to be 1 is the one that was kept. -/
theorem bcastOps_known {j : Nat} : ∀ {ds : List (List Expr)} {cur res : List Expr} {L : List Expr} {c : Expr},
    bcastOps κ false cur ds = some res → cur[j]? = some c →
    (∀ e ∈ L, ∀ m, litOf κ e = some m → m ≠ 1 → litOf κ c = some m) →
    (∀ d ∈ ds, ∃ e, d[j]? = some e) →
    ∃ c', res[j]? = some c' ∧ ∀ e, e ∈ L ∨ (∃ d ∈ ds, d[j]? = some e) → ∀ m, litOf κ e = some m → m ≠ 1 →
      litOf κ c' = some m
  | [], cur, res, L, c, h, hc, hL, _ => by
    simp [bcastOps] at h
    subst h
    refine ⟨c, hc, ?_⟩
    rintro e (he | ⟨d, hd, -⟩)
    · exact hL e he
    · simp at hd
  | d :: ds, cur, res, L, c, h, hc, hL, hd => by
    rw [bcastOps] at h
    cases hb : bcastDims κ false cur d with
    | none => rw [hb] at h; simp at h
    | some c1 =>
      rw [hb] at h
      simp only [Option.bind_some] at h
      obtain ⟨e, he⟩ := hd d (by simp)
      obtain ⟨z, hz, hstep⟩ := bcastDims_of_some hb j c e hc he
      have hinv : ∀ e' ∈ e :: L, ∀ m, litOf κ e' = some m → m ≠ 1 → litOf κ z = some m := by
        intro e' he' m hm hm1
        unfold bcastDim at hstep
        by_cases h1 : litOf κ c = some 1
        · rw [if_pos h1] at hstep
          simp at hstep
          subst hstep
          rcases List.mem_cons.1 he' with rfl | he'
          · exact hm
          · have := hL e' he' m hm hm1
            rw [h1] at this
            simp at this
            omega
        · rw [if_neg h1] at hstep
          cases hlc : litOf κ c with
          | some n =>
            rw [hlc] at hstep
            simp only at hstep
            cases hle : litOf κ e with
            | none =>
              rw [hle] at hstep
              simp at hstep
              subst hstep
              rcases List.mem_cons.1 he' with rfl | he'
              · rw [hle] at hm; simp at hm
              · exact hL e' he' m hm hm1
            | some k =>
              rw [hle] at hstep
              simp only at hstep
              split at hstep
              · simp at hstep
              · rename_i hn
                simp at hstep
                subst hstep
                rcases List.mem_cons.1 he' with rfl | he'
                · rw [hle] at hm
                  simp at hm
                  subst hm
                  rw [hlc]
                  congr 1
                  by_contra hne
                  exact hn ⟨hm1, hne⟩
                · exact hL e' he' m hm hm1
          | none =>
            have hnoL : ∀ e' ∈ L, ∀ m, litOf κ e' = some m → m ≠ 1 → False := by
              intro e' he' m hm hm1
              have := hL e' he' m hm hm1
              rw [hlc] at this
              simp at this
            rw [hlc] at hstep
            simp only at hstep
            split at hstep
            · rename_i h2
              simp at hstep
              subst hstep
              rcases List.mem_cons.1 he' with rfl | he'
              · rw [h2] at hm; simp at hm; omega
              · exact (hnoL e' he' m hm hm1).elim
            · split at hstep
              · simp at hstep
                subst hstep
                rcases List.mem_cons.1 he' with rfl | he'
                · exact hm
                · exact (hnoL e' he' m hm hm1).elim
              · rename_i h2 h3
                rcases List.mem_cons.1 he' with rfl | he'
                · rw [hm] at h3; simp at h3
                · exact (hnoL e' he' m hm hm1).elim
      obtain ⟨c', h1, h2⟩ := bcastOps_known h hz hinv (fun d hd' => hd d (by simp [hd']))
      refine ⟨c', h1, ?_⟩
      rintro e' (he' | ⟨d', hd', hde⟩)
      · exact h2 e' (.inl (by simp [he']))
      · rcases List.mem_cons.1 hd' with rfl | hd'
        · rw [he] at hde
          simp at hde
          subst hde
          exact h2 _ (.inl (by simp))
        · exact h2 e' (.inr ⟨d', hd', hde⟩)

/-- Unidirectional: the extent of the first operand. -/
theorem bcastUni_spec {first : List Nat} {ops : List (List Nat)} (hκ : ∀ x n, κ x = some n → ρ x = n)
    (hb : BroadcastToFirst (first.map ρ) (ops.map (·.map ρ))) :
    ∃ res, bcastShape κ true ((first :: ops).map symDims) = some res ∧ res.length = first.length ∧
      ∀ k < first.length, ∃ e, res.reverse[k]? = some e ∧ e.Ok ρ ∧ e.eval ρ = some (extent (first.map ρ) k) := by
  set r := first.length with hr
  have h1 : ∀ s ∈ first :: ops, s.length ≤ r := fun s hs => by
    rcases List.mem_cons.1 hs with rfl | hs
    · simp [hr]
    · have := hb.fits (s.map ρ) (List.mem_map.2 ⟨s, hs, rfl⟩); simpa using this
  have h2 : ∃ s ∈ first :: ops, s.length = r := ⟨first, by simp, rfl⟩
  unfold bcastShape
  rw [inputsDims_eq h1 h2]
  simp only [List.map_cons]
  obtain ⟨res, hres, hlen, hI⟩ := bcastOps_ind (κ := κ) (uni := true) (r := r)
    (S := ops.map fun s => padTo r (symDims s))
    (I := fun j _ c => c.Ok ρ ∧ c.eval ρ = some (extent (first.map ρ) (r - 1 - j)))
    (by
      intro j P c row e hj hrow he ⟨hok, hv⟩
      obtain ⟨s, hs, rfl⟩ := List.mem_map.1 hrow
      rw [padTo_get (h1 s (by simp [hs])) hj] at he
      simp only [Option.some.injEq] at he
      subst he
      have hd := hb.each (r - 1 - j) (by simp [← hr]; omega) (s.map ρ) (List.mem_map.2 ⟨s, hs, rfl⟩)
      have he := dimE_eval (ρ := ρ) s (r - 1 - j)
      have heo := dimE_ok (ρ := ρ) s (r - 1 - j)
      generalize dimE s (r - 1 - j) = e at he heo
      unfold bcastDim
      by_cases hc1 : litOf κ c = some 1
      · rw [if_pos hc1]; exact ⟨c, by simp, hok, hv⟩
      · rw [if_neg hc1]
        cases hc : litOf κ c with
        | some m =>
          have hm := litOf_eval hκ hc
          rw [hv] at hm
          simp at hm
          simp only
          cases hn : litOf κ e with
          | none => exact ⟨c, rfl, hok, hv⟩
          | some n =>
            have hn' := litOf_eval hκ hn
            rw [he] at hn'
            simp at hn'
            simp only
            rw [if_neg (by
              rintro ⟨q1, q2⟩
              rcases hd with hd | hd <;> omega)]
            exact ⟨c, rfl, hok, hv⟩
        | none =>
          simp only
          split
          · exact ⟨c, rfl, hok, hv⟩
          · rename_i hne
            split
            · rename_i hs
              refine ⟨e, rfl, heo, ?_⟩
              obtain ⟨n, hn⟩ := Option.isSome_iff_exists.1 hs
              have hn' := litOf_eval hκ hn
              rw [he] at hn'
              simp at hn'
              rw [he]
              rcases hd with hd | hd
              · exfalso; apply hne; rw [hn, ← hn', hd]
              · rw [hd]
            · exact ⟨c, rfl, hok, hv⟩)
    (ops.map fun s => padTo r (symDims s)) [] (padTo r (symDims first))
    (by
      intro d hd
      obtain ⟨s, hs, rfl⟩ := List.mem_map.1 hd
      exact ⟨List.mem_map.2 ⟨s, by simp [hs], rfl⟩, padTo_length (by simpa [symDims] using h1 s (by simp [hs]))⟩)
    (padTo_length (by simp [symDims, hr]))
    (by
      intro j c hc
      have hj : j < r := by
        have := (List.getElem?_eq_some_iff.1 hc).1
        rwa [padTo_length (by simp [symDims, hr])] at this
      rw [padTo_get (h1 first (by simp)) hj] at hc
      simp only [Option.some.injEq] at hc
      subst hc
      exact ⟨dimE_ok first _, dimE_eval first _⟩)
  refine ⟨res, hres, hlen, ?_⟩
  intro k hk
  have hj : r - 1 - k < res.length := by omega
  refine ⟨res[r - 1 - k], ?_, ?_⟩
  · rw [List.getElem?_reverse (by omega), hlen, List.getElem?_eq_getElem hj]
  · have := hI (r - 1 - k) _ (List.getElem?_eq_getElem hj)
    rwa [show r - 1 - (r - 1 - k) = k by omega] at this

/-- One dimension of an access. -/
theorem accessDim_spec {noB : Bool} {dim loop : Expr} {others : List Expr} {x o l : Int}
    (hκ : ∀ x n, κ x = some n → ρ x = n)
    (hdo : dim.Ok ρ) (hd : dim.eval ρ = some x) (hlo : loop.Ok ρ) (hl : loop.eval ρ = some l)
    (hx : x = 1 ∨ x = o) (hr : 0 ≤ l ∧ l < o) (hnoB : noB = true → x = o)
    (hoth : ∀ w, (∀ e ∈ others, e.eval ρ = some 1) → w = o → w = 1 ∨ x = w) :
    (accessDim κ noB false dim others loop).Ok ρ ∧
      (accessDim κ noB false dim others loop).eval ρ = some (if x = 1 then 0 else l) := by
  unfold accessDim
  simp only
  split
  · rename_i h1
    have := litOf_eval hκ h1
    rw [hd] at this
    simp at this
    exact ⟨by simp [Expr.Ok], by simp [Expr.eval, this]⟩
  · split
    · rename_i h1 h2
      refine ⟨hlo, ?_⟩
      rw [hl]
      split
      · rename_i h3
        have ho : o = 1 := by
          by_cases hb : noB = true
          · have := hnoB hb; omega
          · simp only [hb, Bool.false_or, Bool.not_false, Bool.true_and, List.all_eq_true, decide_eq_true_eq] at h2
            have hb' : noB = false := by simpa using hb
            subst hb'
            rcases hoth o (fun e he => litOf_eval hκ (h2 e he)) rfl with h | h
            · exact h
            · omega
        congr 1; omega
      · rfl
    · simp only [Bool.false_eq_true, if_false]
      refine ⟨⟨⟨hdo, trivial⟩, hlo, trivial⟩, ?_⟩
      simp only [Expr.eval, PExpr.eval, hd, Option.bind_some, Option.map_some, Cmp.holds, hl]
      rcases hx with hx | hx
      · simp [hx]
      · by_cases h1 : x = 1
        · simp [h1]
        · have : x > 1 := by omega
          simp [h1, this]

/-- All dimensions of an access, counted from the last. -/
theorem accessExprs_spec {ops : List (List Nat)} {out : List Int} {i : Nat} {s loop : List Nat}
    {uni noB : Bool} (hκ : ∀ x n, κ x = some n → ρ x = n)
    (hb : BroadcastTo (ops.map (·.map ρ)) out) (hi : ops[i]? = some s) (hll : loop.length = out.length)
    (hrange : ∀ k < out.length, 0 ≤ extent (loop.map ρ) k ∧ extent (loop.map ρ) k < extent out k)
    (hnoB : (noB || (uni && i == 0)) = true → ∀ k < s.length, extent (s.map ρ) k = extent out k) :
    ∃ acc, accessExprs κ uni noB false (ops.map symDims) i s.length (symDims loop) = some acc ∧
      acc.length = s.length ∧ ∀ k < s.length, ∃ e, acc.reverse[k]? = some e ∧ e.Ok ρ ∧
        e.eval ρ = some (if extent (s.map ρ) k = 1 then 0 else extent (loop.map ρ) k) := by
  set r := out.length with hr
  have h1 : ∀ s ∈ ops, s.length ≤ r := fun s hs => by
    have := hb.fits (s.map ρ) (List.mem_map.2 ⟨s, hs, rfl⟩); simpa using this
  have h2 : ∃ s ∈ ops, s.length = r := by
    obtain ⟨t, ht, hl⟩ := hb.rank
    obtain ⟨s, hs, rfl⟩ := List.mem_map.1 ht
    exact ⟨s, hs, by simpa using hl⟩
  have hs := h1 s (List.mem_of_getElem? hi)
  unfold accessExprs
  rw [inputsDims_eq h1 h2]
  have hsl : (symDims loop).length = r := by simp [symDims, hll]
  have key : ∀ q ∈ List.range s.length, ∃ y, (fun q =>
      ((ops.map fun s => padTo r (symDims s))[i]?.bind fun d => d[(symDims loop).length - s.length + q]?).bind fun operandDim =>
      (((ops.map fun s => padTo r (symDims s)).eraseIdx i).mapM fun d => d[(symDims loop).length - s.length + q]?).bind fun others =>
        (symDims loop)[(symDims loop).length - s.length + q]?.map fun l =>
          accessDim κ (noB || (uni && i == 0)) (false && q + 1 == s.length) operandDim others l) q = some y ∧
      y.Ok ρ ∧ y.eval ρ = some (if extent (s.map ρ) (s.length - 1 - q) = 1 then 0 else
        extent (loop.map ρ) (s.length - 1 - q)) := by
    intro q hq
    have hq := List.mem_range.1 hq
    rw [hsl]
    have hk : s.length - 1 - q < r := by omega
    have hidx : r - 1 - (r - s.length + q) = s.length - 1 - q := by omega
    obtain ⟨others, ho1, ho2, ho3⟩ := optMapM_total (l := (ops.map fun s => padTo r (symDims s)).eraseIdx i)
      (f := fun d => d[r - s.length + q]?) (by
        intro d hd
        obtain ⟨t, ht, rfl⟩ := List.mem_map.1 (List.mem_of_mem_eraseIdx hd)
        exact ⟨_, padTo_get (h1 t ht) (by omega)⟩)
    have hloop : (symDims loop)[r - s.length + q]? = some (dimE loop (s.length - 1 - q)) := by
      have := padTo_get (r := r) (s := loop) (by omega) (j := r - s.length + q) (by omega)
      rw [hidx] at this
      simpa [padTo, symDims, hll] using this
    have hop : ((ops.map fun s => padTo r (symDims s))[i]?.bind fun d => d[r - s.length + q]?) =
        some (dimE s (s.length - 1 - q)) := by
      rw [List.getElem?_map, hi]
      simp only [Option.map_some, Option.bind_some]
      rw [padTo_get hs (by omega), hidx]
    simp only [hop, ho1, hloop, Option.bind_some, Option.map_some, Bool.false_and]
    refine ⟨_, rfl, ?_⟩
    refine accessDim_spec hκ (dimE_ok s _) (dimE_eval s _) (dimE_ok loop _) (dimE_eval loop _)
      (hb.each _ hk _ (List.mem_map.2 ⟨s, List.mem_of_getElem? hi, rfl⟩)) (hrange _ hk)
      (fun h => hnoB h _ (by omega)) ?_
    intro w hw hwo
    obtain ⟨t, ht, hte⟩ := hb.some _ hk
    obtain ⟨i', hi'⟩ := List.mem_iff_getElem?.1 ht
    rw [List.getElem?_map] at hi'
    cases hoi : ops[i']? with
    | none => rw [hoi] at hi'; simp at hi'
    | some u =>
      rw [hoi] at hi'
      simp at hi'
      subst hi'
      by_cases hii : i' = i
      · subst hii
        rw [hi] at hoi
        simp at hoi
        subst hoi
        right; omega
      · left
        have hmem : padTo r (symDims u) ∈ (ops.map fun s => padTo r (symDims s)).eraseIdx i := by
          rw [List.mem_eraseIdx_iff_getElem?]
          exact ⟨i', hii, by rw [List.getElem?_map, hoi]; rfl⟩
        obtain ⟨n, hn⟩ := List.mem_iff_getElem?.1 hmem
        obtain ⟨y, hy1, hy2⟩ := ho3 n _ hn
        have := padTo_get (h1 u (List.mem_of_getElem? hoi)) (j := r - s.length + q) (by omega)
        rw [hidx] at this
        rw [this] at hy2
        simp only [Option.some.injEq] at hy2
        subst hy2
        have := hw _ (List.mem_of_getElem? hy1)
        rw [dimE_eval] at this
        simp at this
        omega
  obtain ⟨acc, ha1, ha2, ha3⟩ := optMapM_total (l := List.range s.length) (fun q hq => ⟨_, (key q hq).choose_spec.1⟩)
  refine ⟨acc, ha1, by simpa using ha2, ?_⟩
  intro k hk
  have hj : s.length - 1 - k < s.length := by omega
  obtain ⟨y, hy1, hy2⟩ := ha3 (s.length - 1 - k) (s.length - 1 - k) (List.getElem?_range hj)
  obtain ⟨y', hy', hok, hev⟩ := key (s.length - 1 - k) (List.mem_range.2 hj)
  have hyy : some y = some y' := hy2.symm.trans hy'
  simp only [Option.some.injEq] at hyy
  subst hyy
  refine ⟨y, ?_, hok, ?_⟩
  · rw [List.getElem?_reverse (by rw [ha2]; simpa using hk), ha2, List.length_range]
    exact hy1
  · rw [hev, show s.length - 1 - (s.length - 1 - k) = k by omega]

end Verif.Shape
