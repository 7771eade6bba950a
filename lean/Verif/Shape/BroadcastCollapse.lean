import Verif.Shape.BroadcastLemmas
import Mathlib.Algebra.BigOperators.Group.List.Basic
import Mathlib.Tactic.Ring

namespace Verif.Shape
open Verif.IndexExpr

variable {κ : Nat → Option Int} {ρ : Nat → Int}

theorem noBcastStatic_true : ∀ {cols : List (List (Option Expr))}, noBcastStatic κ cols = some true →
    ∀ col ∈ cols, noBcastCol κ col = true
  | [], _, col, hc => by simp at hc
  | c :: cols, h, col, hc => by
    rw [noBcastStatic] at h
    split at h
    · simp at h
    · split at h
      · rename_i h1
        rcases List.mem_cons.1 hc with rfl | hc
        · exact h1
        · exact noBcastStatic_true h col hc
      · simp at h

theorem hasNoBroadcast_spec {ops : List (List Nat)} {out : List Int} {same : Nat → Bool}
    (hκ : ∀ x n, κ x = some n → ρ x = n) (hb : BroadcastTo (ops.map (·.map ρ)) out)
    (hsame : ∀ (i : Nat) (s t : List Nat), ops[0]? = some s → ops[i]? = some t → same i = true →
      t.map ρ = s.map ρ)
    (h : hasNoBroadcast κ (ops.map symDims) same = true) :
    ∀ s ∈ ops, ∀ k < out.length, extent (s.map ρ) k = extent out k := by
  set r := out.length with hr
  have h1 : ∀ s ∈ ops, s.length ≤ r := fun s hs => by
    have := hb.fits (s.map ρ) (List.mem_map.2 ⟨s, hs, rfl⟩); simpa using this
  have h2 : ∃ s ∈ ops, s.length = r := by
    obtain ⟨t, ht, hl⟩ := hb.rank
    obtain ⟨s, hs, rfl⟩ := List.mem_map.1 ht
    exact ⟨s, hs, by simpa using hl⟩
  unfold hasNoBroadcast at h
  rw [inputsDims_eq h1 h2, outRank_eq h1 h2] at h
  simp only at h
  intro s hs k hk
  obtain ⟨t', ht', hte⟩ := hb.some k hk
  obtain ⟨t, ht, rfl⟩ := List.mem_map.1 ht'
  split at h
  · rename_i b hst
    subst h
    have hcol := noBcastStatic_true hst _ (List.mem_map.2 ⟨r - 1 - k, List.mem_range.2 (by omega), rfl⟩)
    have hent : ∀ u ∈ ops, (padTo r (symDims u))[r - 1 - k]? = some (dimE u k) := fun u hu => by
      rw [padTo_get (h1 u hu) (by omega), show r - 1 - (r - 1 - k) = k by omega]
    have hl : ((ops.map fun s => padTo r (symDims s)).map fun d => d[r - 1 - k]?).map
        (fun e => e.bind (litOf κ)) = ops.map fun u => litOf κ (dimE u k) := by
      rw [List.map_map, List.map_map]
      apply List.map_congr_left
      intro u hu
      simp only [Function.comp_apply, hent u hu, Option.bind_some]
    unfold noBcastCol at hcol
    simp only at hcol
    rw [hl] at hcol
    simp only [Bool.and_eq_true, List.all_map, List.all_eq_true, Function.comp_apply,
      Bool.not_eq_true', Bool.and_eq_false_iff] at hcol
    obtain ⟨hlit, hmix⟩ := hcol
    have hval : ∀ u ∈ ops, litOf κ (dimE u k) = some (extent (u.map ρ) k) := by
      intro u hu
      obtain ⟨m, hm⟩ := Option.isSome_iff_exists.1 (hlit u hu)
      have := litOf_eval hκ hm
      rw [dimE_eval] at this
      simp only [Option.some.injEq] at this
      rw [hm, this]
    rcases hmix with hm | hm
    · rcases hb.each k hk _ (List.mem_map.2 ⟨s, hs, rfl⟩) with h3 | h3
      · exfalso
        rw [List.any_eq_false] at hm
        apply hm (litOf κ (dimE s k)) (List.mem_map.2 ⟨s, hs, rfl⟩)
        rw [hval s hs, h3]; rfl
      · exact h3
    · rw [List.any_eq_false] at hm
      have hone : ∀ u ∈ ops, extent (u.map ρ) k = 1 := by
        intro u hu
        have := hm (litOf κ (dimE u k)) (List.mem_map.2 ⟨u, hu, rfl⟩)
        rw [hval u hu] at this
        simpa using this
      rw [← hte, hone s hs, hone t ht]
  · simp only [List.all_eq_true, List.mem_range, List.length_map] at h
    have hall : ∀ u ∈ ops, ∀ s0, ops[0]? = some s0 → u.map ρ = s0.map ρ := by
      intro u hu s0 hs0
      obtain ⟨i, hi⟩ := List.mem_iff_getElem?.1 hu
      cases i with
      | zero => rw [hs0] at hi; simp at hi; rw [hi]
      | succ i =>
        have := (List.getElem?_eq_some_iff.1 hi).1
        exact hsame (i + 1) s0 u hs0 hi (h i (by omega))
    have hne : 0 < ops.length := by
      cases ops with
      | nil => simp at hs
      | cons a l => simp
    have h0 := List.getElem?_eq_getElem (l := ops) (i := 0) hne
    rw [← hte, hall s hs _ h0, hall t ht _ h0]

theorem padTo_reverse_getD {r : Nat} {s : List Nat} (k : Nat) :
    (padTo r (symDims s)).reverse.getD k (.lit 1) = dimE s k := by
  unfold padTo dimE
  rw [List.reverse_append, List.getD_eq_getElem?_getD, List.getD_eq_getElem?_getD, List.getElem?_append]
  split
  · rfl
  · rename_i h
    rw [List.getElem?_eq_none_iff.2 (show (symDims s).reverse.length ≤ k by omega), List.reverse_replicate,
      List.getElem?_replicate]
    split <;> rfl

theorem lastNonOne_none {l : List Bool} (h : lastNonOne l = none) : ∀ b ∈ l, b = true := by
  unfold lastNonOne at h
  rw [List.find?_eq_none] at h
  intro b hb
  obtain ⟨i, hi⟩ := List.mem_iff_getElem?.1 hb
  have := h i (by
    have := (List.getElem?_eq_some_iff.1 hi).1
    simpa using this)
  rw [hi] at this
  simpa using this

theorem lastNonOne_some {l : List Bool} {n : Nat} (h : lastNonOne l = some n) : l[n]? = some false := by
  unfold lastNonOne at h
  have := List.find?_some h
  simpa using this

/-- After the `n` last dimensions. -/
structure CollapseInv (κ : Nat → Option Int) (ρ : Nat → Int) (ops : List (List Nat)) (out : List Int)
    (n : Nat) (s : Collapse) : Prop where
  loops : s.loops = n
  scalarLen : s.isScalar.length = ops.length
  bcastLen : s.hasBroadcast.length = ops.length
  scalar : ∀ (i : Nat) (t : List Nat), ops[i]? = some t →
    (s.isScalar[i]? = some true ↔ ∀ k < n, litOf κ (dimE t k) = some 1)
  full : ∀ (i : Nat) (t : List Nat), ops[i]? = some t → s.hasBroadcast[i]? = some false →
    ∀ k < n, extent (t.map ρ) k = extent out k
  one : ∀ (i : Nat) (t : List Nat), ops[i]? = some t → s.hasBroadcast[i]? = some true →
    ∀ k < n, litOf κ (dimE t k) = some 1
  ok : s.dynamicSize.Ok ρ
  size : ∃ v, s.dynamicSize.eval ρ = some v ∧
    s.literalSize * v = ((List.range n).map fun k => extent out k).prod

theorem collapseStep_inv {ops : List (List Nat)} {out : List Int} {n : Nat} {s s' : Collapse}
    {sameDim : Nat → Nat → Bool} (hκ : ∀ x n, κ x = some n → ρ x = n)
    (hb : BroadcastTo (ops.map (·.map ρ)) out) (hn : n < out.length)
    (hsame : ∀ (i j : Nat) (t u : List Nat), ops[i]? = some t → ops[j]? = some u → sameDim i j = true →
      extent (t.map ρ) n = extent (u.map ρ) n)
    (hinv : CollapseInv κ ρ ops out n s)
    (h : collapseStep κ sameDim s (ops.map fun t => dimE t n) = some s') :
    CollapseInv κ ρ ops out (n + 1) s' := by
  unfold collapseStep at h
  simp only [List.map_map] at h
  set isOne := ops.map ((fun e => decide (litOf κ e = some 1)) ∘ fun t => dimE t n) with hone
  set isScalar := List.zipWith (· && ·) s.isScalar isOne with hscal
  have gone : ∀ (i : Nat) (t : List Nat), ops[i]? = some t →
      isOne[i]? = some (decide (litOf κ (dimE t n) = some 1)) := by
    intro i t ht
    rw [hone, List.getElem?_map, ht]; rfl
  have gsc : ∀ (i : Nat) (t : List Nat), ops[i]? = some t → ∃ b, s.isScalar[i]? = some b ∧
      isScalar[i]? = some (b && decide (litOf κ (dimE t n) = some 1)) := by
    intro i t ht
    have hi : i < s.isScalar.length := by
      rw [hinv.scalarLen]; exact (List.getElem?_eq_some_iff.1 ht).1
    refine ⟨s.isScalar[i], List.getElem?_eq_getElem hi, ?_⟩
    rw [hscal, List.getElem?_zipWith, List.getElem?_eq_getElem hi, gone i t ht]
  have hsc' : ∀ (i : Nat) (t : List Nat), ops[i]? = some t →
      (isScalar[i]? = some true ↔ ∀ k < n + 1, litOf κ (dimE t k) = some 1) := by
    intro i t ht
    obtain ⟨b, hb1, hb2⟩ := gsc i t ht
    have hs := hinv.scalar i t ht
    rw [hb1] at hs
    rw [hb2]
    constructor
    · intro h
      simp at h
      intro k hk
      rcases Nat.lt_succ_iff_lt_or_eq.1 hk with hk | rfl
      · exact (hs.1 (by rw [h.1])) k hk
      · exact h.2
    · intro h
      have h1 := hs.2 fun k hk => h k (by omega)
      simp at h1
      rw [h1, h n (by omega)]; rfl
  have hslen : isScalar.length = ops.length := by simp [hscal, hone, hinv.scalarLen]
  split at h
  · simp at h
  · rename_i hlost
    simp only [Bool.not_eq_true, List.any_eq_false, id_eq] at hlost
    -- operands that were broadcast stay scalar
    have hstay : ∀ (i : Nat) (t : List Nat), ops[i]? = some t → s.hasBroadcast[i]? = some true →
        isScalar[i]? = some true := by
      intro i t ht hbi
      obtain ⟨b, -, hb2⟩ := gsc i t ht
      by_contra hne
      rw [hb2] at hne
      have hbf : (b && decide (litOf κ (dimE t n) = some 1)) = false := by
        cases hx : (b && decide (litOf κ (dimE t n) = some 1)) with
        | false => rfl
        | true => rw [hx] at hne; exact absurd rfl hne
      apply absurd (hlost true _) (by simp)
      apply List.mem_of_getElem? (i := i)
      rw [List.getElem?_zipWith, hb2, hbi, hbf]; rfl
    have hexb : ∀ (i : Nat) (t : List Nat), ops[i]? = some t → ∃ b, s.hasBroadcast[i]? = some b := by
      intro i t ht
      have hi : i < s.hasBroadcast.length := by
        rw [hinv.bcastLen]; exact (List.getElem?_eq_some_iff.1 ht).1
      exact ⟨_, List.getElem?_eq_getElem hi⟩
    obtain ⟨u0, hu0, hu0e⟩ := hb.some n hn
    obtain ⟨u, hu, rfl⟩ := List.mem_map.1 hu0
    obtain ⟨v, hv1, hv2⟩ := hinv.size
    split at h
    · -- all ones
      rename_i hns
      have hall := lastNonOne_none hns
      have hall1 : ∀ t ∈ ops, litOf κ (dimE t n) = some 1 := by
        intro t ht
        obtain ⟨i, hi⟩ := List.mem_iff_getElem?.1 ht
        have := hall _ (List.mem_of_getElem? (gone i t hi))
        simpa using this
      have hext : ∀ t ∈ ops, extent (t.map ρ) n = 1 := by
        intro t ht
        have := litOf_eval hκ (hall1 t ht)
        rw [dimE_eval] at this
        simpa using this
      have hout : extent out n = 1 := by rw [← hu0e, hext u hu]
      simp only [Option.some.injEq] at h
      subst h
      refine ⟨by simp [hinv.loops], hslen, hinv.bcastLen, hsc', ?_, ?_, hinv.ok, v, hv1, ?_⟩
      · intro i t ht hf k hk
        rcases Nat.lt_succ_iff_lt_or_eq.1 hk with hk | rfl
        · exact hinv.full i t ht hf k hk
        · rw [hout, hext t (List.mem_of_getElem? ht)]
      · intro i t ht hf
        exact (hsc' i t ht).1 (hstay i t ht hf)
      · rw [List.range_succ, List.map_append, List.prod_append, ← hv2]
        simp [hout]
    · rename_i ns hns
      have hnsf := lastNonOne_some hns
      split at h
      · simp at h
      · rename_i hcomp
        simp only [Bool.not_eq_true', Bool.not_eq_false] at hcomp
        split at h
        · simp at h
        · rename_i hnew
          simp only [Bool.not_eq_true, List.any_eq_false, id_eq] at hnew
          -- the reference operand
          have hnslt : ns < ops.length := by
            have := (List.getElem?_eq_some_iff.1 hnsf).1
            simpa [hone] using this
          have hw := List.getElem?_eq_getElem hnslt
          set w := ops[ns] with hwdef
          have hwn1 : litOf κ (dimE w n) ≠ some 1 := by
            have := gone ns w hw
            rw [hnsf] at this
            simpa using this
          have hcol : (ops.map fun t => dimE t n)[ns]? = some (dimE w n) := by
            rw [List.getElem?_map, hw]; rfl
          -- operands different from one here agree with the reference
          have hagree : ∀ (i : Nat) (t : List Nat), ops[i]? = some t → litOf κ (dimE t n) ≠ some 1 →
              extent (t.map ρ) n = extent (w.map ρ) n := by
            intro i t ht ht1
            unfold compatible at hcomp
            rw [List.all_eq_true] at hcomp
            have := hcomp i (by
              have := (List.getElem?_eq_some_iff.1 ht).1
              simpa using this)
            have hti : (ops.map fun t => dimE t n)[i]? = some (dimE t n) := by
              rw [List.getElem?_map, ht]; rfl
            simp only [hti, hcol] at this
            simp only [ht1, decide_false, Bool.false_or, Bool.or_eq_true, beq_iff_eq] at this
            rcases this with rfl | this
            · rw [hw] at ht; simp at ht; rw [ht]
            · cases hlw : litOf κ (dimE w n) with
              | none =>
                rw [hlw] at this
                exact (hsame ns i w t hw ht this).symm
              | some m =>
                cases hlt : litOf κ (dimE t n) with
                | none =>
                  rw [hlw, hlt] at this
                  exact (hsame ns i w t hw ht this).symm
                | some m' =>
                  rw [hlw, hlt] at this
                  simp only [decide_eq_true_eq] at this
                  have e1 := litOf_eval hκ hlw
                  have e2 := litOf_eval hκ hlt
                  rw [dimE_eval] at e1 e2
                  simp only [Option.some.injEq] at e1 e2
                  omega
          have hwout : extent (w.map ρ) n = extent out n := by
            rcases hb.each n hn (w.map ρ) (List.mem_map.2 ⟨w, List.mem_of_getElem? hw, rfl⟩) with h3 | h3
            · obtain ⟨i, hi⟩ := List.mem_iff_getElem?.1 hu
              by_cases hu1 : litOf κ (dimE u n) = some 1
              · have := litOf_eval hκ hu1
                rw [dimE_eval] at this
                simp only [Option.some.injEq] at this
                omega
              · rw [← hu0e, hagree i u hi hu1]
            · exact h3
          -- an operand that is one here is scalar
          have honescalar : ∀ (i : Nat) (t : List Nat), ops[i]? = some t → litOf κ (dimE t n) = some 1 →
              isScalar[i]? = some true := by
            intro i t ht ht1
            obtain ⟨b, -, hb2⟩ := gsc i t ht
            by_contra hne
            rw [hb2] at hne
            have hbf : (b && decide (litOf κ (dimE t n) = some 1)) = false := by
              cases hx : (b && decide (litOf κ (dimE t n) = some 1)) with
              | false => rfl
              | true => rw [hx] at hne; exact absurd rfl hne
            apply absurd (hnew true _) (by simp)
            apply List.mem_of_getElem? (i := i)
            rw [List.getElem?_zipWith, hb2, gone i t ht, hbf, ht1]; rfl
          have key : ∀ s'' : Collapse, s''.loops = n + 1 → s''.isScalar = isScalar →
              s''.hasBroadcast = List.zipWith (· || ·) s.hasBroadcast isScalar →
              s''.dynamicSize.Ok ρ → (∃ v, s''.dynamicSize.eval ρ = some v ∧
                s''.literalSize * v = ((List.range (n + 1)).map fun k => extent out k).prod) →
              CollapseInv κ ρ ops out (n + 1) s'' := by
            intro s'' q1 q2 q3 q4 q5
            have hget : ∀ (i : Nat) (t : List Nat), ops[i]? = some t → ∃ b1 b2,
                s.hasBroadcast[i]? = some b1 ∧ isScalar[i]? = some b2 ∧ s''.hasBroadcast[i]? = some (b1 || b2) := by
              intro i t ht
              obtain ⟨b1, hb1⟩ := hexb i t ht
              obtain ⟨b, -, hb2⟩ := gsc i t ht
              exact ⟨b1, _, hb1, hb2, by rw [q3, List.getElem?_zipWith, hb1, hb2]⟩
            refine ⟨q1, by rw [q2, hslen], by rw [q3]; simp [hinv.bcastLen, hslen], by rw [q2]; exact hsc', ?_, ?_, q4, q5⟩
            · intro i t ht hf k hk
              obtain ⟨b1, b2, g1, g2, g3⟩ := hget i t ht
              rw [g3] at hf
              simp at hf
              rcases Nat.lt_succ_iff_lt_or_eq.1 hk with hk | rfl
              · exact hinv.full i t ht (by rw [g1, hf.1]) k hk
              · rw [← hwout]
                apply hagree i t ht
                intro h1
                rw [honescalar i t ht h1] at g2
                simp at g2
                simp [g2] at hf
            · intro i t ht hf
              obtain ⟨b1, b2, g1, g2, g3⟩ := hget i t ht
              rw [g3] at hf
              simp at hf
              apply (hsc' i t ht).1
              rcases hf with hf | hf
              · exact hstay i t ht (by rw [g1, hf])
              · rw [g2, hf]
          rw [hcol] at h
          simp only [Option.getD_some] at h
          split at h
          · rename_i m hm
            simp only [Option.some.injEq] at h
            subst h
            refine key _ (by simp [hinv.loops]) rfl rfl hinv.ok ⟨v, hv1, ?_⟩
            have e1 := litOf_eval hκ hm
            rw [dimE_eval] at e1
            simp only [Option.some.injEq] at e1
            rw [List.range_succ, List.map_append, List.prod_append, ← hv2]
            simp only [List.map_cons, List.map_nil, List.prod_cons, List.prod_nil, ← hwout, e1]
            ring
          · simp only [Option.some.injEq] at h
            subst h
            refine key _ (by simp [hinv.loops]) rfl rfl ⟨hinv.ok, dimE_ok _ _⟩ ⟨v * extent out n, ?_, ?_⟩
            · simp only [Expr.eval, hv1, dimE_eval, lift2, Option.bind_some, hwout]
            · rw [List.range_succ, List.map_append, List.prod_append, ← hv2]
              simp only [List.map_cons, List.map_nil, List.prod_cons, List.prod_nil]
              ring

theorem collapseLoop_inv {ops : List (List Nat)} {out : List Int}
    {sameDim : Nat → Nat → Nat → Bool} (hκ : ∀ x n, κ x = some n → ρ x = n)
    (hb : BroadcastTo (ops.map (·.map ρ)) out)
    (hsame : ∀ (k i j : Nat) (t u : List Nat), ops[i]? = some t → ops[j]? = some u → sameDim k i j = true →
      extent (t.map ρ) k = extent (u.map ρ) k) :
    ∀ (m n : Nat) (s : Collapse), n + m = out.length → CollapseInv κ ρ ops out n s →
      ∃ c, c ≤ out.length ∧ CollapseInv κ ρ ops out c
        (collapseLoop κ sameDim s ((List.range' n m).map fun k => ops.map fun t => dimE t k))
  | 0, n, s, hnm, hinv => by
    refine ⟨n, by omega, ?_⟩
    simpa [collapseLoop] using hinv
  | m + 1, n, s, hnm, hinv => by
    rw [List.range'_succ, List.map_cons, collapseLoop]
    cases h : collapseStep κ (sameDim s.loops) s (ops.map fun t => dimE t n) with
    | none => exact ⟨n, by omega, by simpa using hinv⟩
    | some s' =>
      simp only
      have hinv' := collapseStep_inv hκ hb (by omega) (fun i j t u ht hu hs => by
        rw [hinv.loops] at hs
        exact hsame n i j t u ht hu hs) hinv h
      exact collapseLoop_inv hκ hb hsame m (n + 1) s' (by omega) hinv'

theorem manageable_spec {ops : List (List Nat)} {out : List Int}
    {sameDim : Nat → Nat → Nat → Bool} (hκ : ∀ x n, κ x = some n → ρ x = n)
    (hb : BroadcastTo (ops.map (·.map ρ)) out)
    (hsame : ∀ (k i j : Nat) (t u : List Nat), ops[i]? = some t → ops[j]? = some u → sameDim k i j = true →
      extent (t.map ρ) k = extent (u.map ρ) k) :
    ∃ c, c ≤ out.length ∧ CollapseInv κ ρ ops out c (manageable κ sameDim (ops.map symDims)) := by
  have h1 : ∀ s ∈ ops, s.length ≤ out.length := fun s hs => by
    have := hb.fits (s.map ρ) (List.mem_map.2 ⟨s, hs, rfl⟩); simpa using this
  have h2 : ∃ s ∈ ops, s.length = out.length := by
    obtain ⟨t, ht, hl⟩ := hb.rank
    obtain ⟨s, hs, rfl⟩ := List.mem_map.1 ht
    exact ⟨s, hs, by simpa using hl⟩
  unfold manageable
  rw [inputsDims_eq h1 h2, outRank_eq h1 h2]
  simp only [List.map_map]
  have hcols : ((List.range out.length).map fun k => ops.map
      ((fun d => d.reverse.getD k (.lit 1)) ∘ fun s => padTo out.length (symDims s))) =
      (List.range' 0 out.length).map fun k => ops.map fun t => dimE t k := by
    rw [List.range_eq_range']
    apply List.map_congr_left
    intro k _
    apply List.map_congr_left
    intro s _
    exact padTo_reverse_getD k
  rw [hcols]
  apply collapseLoop_inv hκ hb hsame out.length 0 _ (by omega)
  refine ⟨rfl, by simp, by simp, ?_, ?_, ?_, trivial, 1, rfl, by simp⟩
  · intro i t ht
    simp only [List.getElem?_map, ht]
    simp
  · intro i t _ _ k hk; omega
  · intro i t _ _ k hk; omega

end Verif.Shape
