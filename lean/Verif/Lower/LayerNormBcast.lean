import Verif.Lower.LayerNormSpec
import Verif.Lower.ReduceSimd
import Verif.Lower.NdLemmas

/-!
Lemmas for LayerNormalization: the broadcast analysis.
-/

namespace Verif.Lower

open Verif.Krnl (Buf starts)

/-- What a kind promises about the dimensions before (`hi`) and after (`lo`) the axis. -/
def KindOk (k : BKind) (modF : ℤ) (hi lo : List ODim) : Prop :=
  match k with
  | .unsupported => True
  | .scalarScalar => (∀ x ∈ hi, x.one = true) ∧ ∀ x ∈ lo, x.one = true
  | .scalarFull => (∀ x ∈ hi, x.one = true) ∧ ∀ x ∈ lo, x.same = true
  | .partScalar => (∃ c, (∀ x ∈ hi.take c, x.one = true) ∧ (∀ x ∈ hi.drop c, x.same = true) ∧
      modF = numel ((hi.drop c).map ODim.d)) ∧ ∀ x ∈ lo, x.one = true
  | .partFull => (∃ c, (∀ x ∈ hi.take c, x.one = true) ∧ (∀ x ∈ hi.drop c, x.same = true) ∧
      modF = numel ((hi.drop c).map ODim.d)) ∧ ∀ x ∈ lo, x.same = true
  | .fullScalar => (∀ x ∈ hi, x.same = true) ∧ ∀ x ∈ lo, x.one = true
  | .fullFull => (∀ x ∈ hi, x.same = true) ∧ ∀ x ∈ lo, x.same = true

theorem countSame_spec : ∀ xs : List ODim, (countSame xs).1 ≤ xs.length ∧
    (∀ x ∈ xs.take (countSame xs).1, x.same = true) ∧ ((countSame xs).2 = true → (countSame xs).1 = xs.length)
  | [] => by simp [countSame]
  | x :: xs => by
    have ih := countSame_spec xs
    unfold countSame
    by_cases h : x.same = true
    · rw [if_pos h]
      refine ⟨by simpa using ih.1, ?_, fun h2 => by simpa using ih.2.2 h2⟩
      intro y hy
      simp only [List.take_succ_cons, List.mem_cons] at hy
      rcases hy with rfl | hy
      · exact h
      · exact ih.2.1 y hy
    · rw [if_neg h]
      simp

theorem foldl_mul_d : ∀ (L : List ODim) (m : ℤ), L.foldl (fun m x => m * x.d) m = m * numel (L.map ODim.d)
  | [], m => by simp [numel]
  | x :: L, m => by rw [List.foldl_cons, foldl_mul_d L, List.map_cons, numel_cons, mul_assoc]

theorem bcastKind_ok (od : List ODim) (orank axis : ℕ) (hax : axis ≤ od.length) :
    KindOk (bcastKind od orank axis).1 (bcastKind od orank axis).2 (od.take axis) (od.drop axis) := by
  have hlen : (od.take axis).length = axis := by simp [hax]
  unfold bcastKind
  simp only
  by_cases hs : ((od.take axis).all ODim.one && (od.drop axis).all ODim.one) = true
  · rw [if_pos hs]
    simpa [KindOk] using hs
  · rw [if_neg hs]
    by_cases hr : orank < od.length - axis
    · rw [if_pos hr]; trivial
    · rw [if_neg hr]
      generalize hls : (od.drop axis).all ODim.one = ls
      generalize hlf : (od.drop axis).all ODim.same = lf
      generalize hhs : (od.take axis).all ODim.one = hs'
      rw [hls, hhs] at hs
      have hc := countSame_spec ((od.take axis).drop (od.length - orank)).reverse
      generalize hcnt : countSame ((od.take axis).drop (od.length - orank)).reverse = cnt at hc
      have hls' : ls = true → ∀ x ∈ od.drop axis, x.one = true := by intro h; rw [h] at hls; simpa using hls
      have hlf' : lf = true → ∀ x ∈ od.drop axis, x.same = true := by intro h; rw [h] at hlf; simpa using hlf
      have hhs' : hs' = true → ∀ x ∈ od.take axis, x.one = true := by intro h; rw [h] at hhs; simpa using hhs
      cases hs' with
      | true =>
        cases ls with
        | true => simp at hs
        | false =>
          cases lf with
          | false => simp [KindOk]
          | true => exact ⟨hhs' rfl, hlf' rfl⟩
      | false =>
        simp only [Bool.not_false, Bool.true_and, Bool.false_or, Bool.false_and, Bool.false_eq_true, if_false]
        rw [List.length_reverse, List.length_drop, hlen] at hc
        have hb : od.length - (cnt.1 + (od.length - axis)) = axis - cnt.1 := by omega
        rw [hb]
        -- the last `cnt.1` dimensions before the axis agree
        have hsame : ∀ x ∈ (od.take axis).drop (axis - cnt.1), x.same = true := by
          intro x hx
          refine hc.2.1 x ?_
          rw [List.take_reverse, List.mem_reverse, List.length_drop, hlen, List.drop_drop]
          have : od.length - orank + (axis - (od.length - orank) - cnt.1) = axis - cnt.1 := by omega
          rw [this]
          exact hx
        have htt : (od.take axis).take (axis - cnt.1) = od.take (axis - cnt.1) := by
          rw [List.take_take]; congr 1; omega
        have hfull : (cnt.2 && !decide (orank < od.length)) = true → ∀ x ∈ od.take axis, x.same = true := by
          intro h
          simp only [Bool.and_eq_true, Bool.not_eq_true', decide_eq_false_iff_not] at h
          have h0 : od.length - orank = 0 := by omega
          have h1 := hc.2.2 h.1
          have : axis - cnt.1 = 0 := by omega
          rw [this, List.drop_zero] at hsame
          exact hsame
        generalize hhf : (cnt.2 && !decide (orank < od.length)) = hf at hfull
        generalize hpp : (od.take (axis - cnt.1)).all ODim.one = pp
        have hpp' : pp = true → ∀ x ∈ (od.take axis).take (axis - cnt.1), x.one = true := by
          intro h; rw [h] at hpp; rw [htt]; simpa using hpp
        have hmod : ((od.take axis).drop (axis - cnt.1)).foldl (fun m x => m * x.d) 1 =
            numel (((od.take axis).drop (axis - cnt.1)).map ODim.d) := by rw [foldl_mul_d, one_mul]
        cases ls <;> cases lf <;> cases hf <;> cases pp <;> simp only [Bool.not_true, Bool.not_false, Bool.true_and, Bool.and_true,
          Bool.false_and, Bool.and_false, Bool.or_false, Bool.or_true, Bool.false_eq_true, if_true, if_false] <;>
          first
          | trivial
          | exact ⟨hfull rfl, hlf' rfl⟩
          | exact ⟨hfull rfl, hls' rfl⟩
          | exact ⟨⟨_, hpp' rfl, hsame, hmod⟩, hls' rfl⟩
          | exact ⟨⟨_, hpp' rfl, hsame, hmod⟩, hlf' rfl⟩

theorem bcastIdx_append {a b : List ℤ} {x y : Idx} (h : a.length = x.length) :
    bcastIdx (a ++ b) (x ++ y) = bcastIdx a x ++ bcastIdx b y := List.zipWith_append h

theorem bcastIdx_length {a : List ℤ} {x : Idx} (h : a.length = x.length) : (bcastIdx a x).length = a.length := by
  unfold bcastIdx; rw [List.length_zipWith]; omega

/-- All ones: always element 0. -/
theorem lin_allOne : ∀ (a : List ℤ) (x : Idx), (∀ d ∈ a, d = 1) → lin a (bcastIdx a x) = 0
  | [], _, _ => by simp [lin]
  | _ :: _, [], _ => by simp [bcastIdx, lin]
  | d :: a, x :: xs, h => by
    have hd := h d (by simp)
    have ih := lin_allOne a xs fun e he => h e (by simp [he])
    unfold bcastIdx at ih ⊢
    rw [List.zipWith_cons_cons, lin, if_pos hd, ih]
    simp

theorem numel_allOne : ∀ (a : List ℤ), (∀ d ∈ a, d = 1) → numel a = 1
  | [], _ => rfl
  | d :: a, h => by rw [numel_cons, h d (by simp), numel_allOne a fun e he => h e (by simp [he])]; rfl

/-- The dimensions of X: the index itself. -/
theorem bcastIdx_self {a : List ℤ} {x : Idx} (h : InShape x a) : bcastIdx a x = x := by
  induction h with
  | nil => rfl
  | cons hx _ ih =>
    unfold bcastIdx at ih ⊢
    rw [List.zipWith_cons_cons, ih]
    congr 1
    split
    · omega
    · rfl

theorem lin_mod (a b : List ℤ) (x y : Idx) (hx : InShape x a) (hy : InShape y b) :
    lin (a ++ b) (x ++ y) % numel b = lin b y := by
  have := lin_bounds hy
  rw [lin_append a b x y hx.length, add_comm, Int.add_mul_emod_self_right, Int.emod_eq_of_lt this.1 this.2]

/-- `a` and `x.d` of the same dimensions. -/
theorem same_eq {xs : List ODim} {ds : List ℤ} (hl : xs.length = ds.length) (h : ∀ p ∈ xs.zip ds, p.1.same = true → p.1.d = p.2)
    (hs : ∀ x ∈ xs, x.same = true) : xs.map ODim.d = ds := by
  induction xs generalizing ds with
  | nil => cases ds with
    | nil => rfl
    | cons => simp at hl
  | cons x xs ih =>
    cases ds with
    | nil => simp at hl
    | cons d ds =>
      rw [List.map_cons, ih (by simpa using hl) (fun p hp => h p (by simp [hp])) (fun y hy => hs y (by simp [hy])),
        h (x, d) (by simp) (hs x (by simp))]

/-- The value loaded for lane `l` is the element of the operand that broadcasting pairs with the
element of X in row `oi` at position `ii`. -/
theorem bcastLoad_spec {od : List ODim} {orank axis : ℕ} {outer inner : List ℤ} (hok : OdOk od orank (outer ++ inner))
    (hax : outer.length = axis) (hk : (bcastKind od orank axis).1 ≠ .unsupported) {b : Buf ℝ}
    (hsz : b.size = numel (od.map ODim.d)) {oi : Idx} (hoi : InShape oi outer) {VL : ℕ} {j : ℤ} (hj : 0 ≤ j)
    (hVL : 0 < VL) (hjK : j + VL ≤ numel inner) :
    ∃ f, (lnOperand od orank axis b).load VL (lin outer oi) j = some f ∧ ∀ l < VL, ∀ ii, InShape ii inner →
      lin inner ii = j + l → f l = b.data (lin (od.map ODim.d) (bcastIdx (od.map ODim.d) (oi ++ ii))) := by
  have hlen := hok.length
  rw [List.length_append, hax] at hlen
  have hkind := bcastKind_ok od orank axis (by omega)
  have hL := lin_bounds hoi
  have hsplit : od.map ODim.d = (od.take axis).map ODim.d ++ (od.drop axis).map ODim.d := by
    rw [← List.map_append, List.take_append_drop]
  have hhl : (od.take axis).length = outer.length := by simp; omega
  have hll : (od.drop axis).length = inner.length := by simp; omega
  have hzip : od.zip (outer ++ inner) = (od.take axis).zip outer ++ (od.drop axis).zip inner := by
    conv_lhs => rw [← List.take_append_drop axis od]
    exact List.zip_append hhl
  have hone : ∀ L : List ODim, (∀ x ∈ L, x ∈ od) → (∀ x ∈ L, x.one = true) → ∀ d ∈ L.map ODim.d, d = 1 := by
    intro L h1 h2 d hd
    obtain ⟨x, hx, rfl⟩ := List.mem_map.1 hd
    exact hok.one x (h1 x hx) (h2 x hx)
  have hidx : ∀ ii, InShape ii inner → lin (od.map ODim.d) (bcastIdx (od.map ODim.d) (oi ++ ii)) =
      lin ((od.take axis).map ODim.d) (bcastIdx ((od.take axis).map ODim.d) oi) * numel ((od.drop axis).map ODim.d) +
        lin ((od.drop axis).map ODim.d) (bcastIdx ((od.drop axis).map ODim.d) ii) := by
    intro ii hii
    rw [hsplit, bcastIdx_append (by rw [List.length_map, hhl, hoi.length]), lin_append]
    rw [bcastIdx_length (by rw [List.length_map, hhl, hoi.length])]
  have hloOne : (∀ x ∈ od.drop axis, x.one = true) → numel ((od.drop axis).map ODim.d) = 1 ∧
      ∀ ii, lin ((od.drop axis).map ODim.d) (bcastIdx ((od.drop axis).map ODim.d) ii) = 0 := by
    intro h
    have h1 := hone _ (fun x hx => List.mem_of_mem_drop hx) h
    exact ⟨numel_allOne _ h1, fun ii => lin_allOne _ _ h1⟩
  have hloSame : (∀ x ∈ od.drop axis, x.same = true) → (od.drop axis).map ODim.d = inner := fun h =>
    same_eq hll (fun p hp => hok.same p (by rw [hzip]; exact List.mem_append_right _ hp)) h
  have hhiOne : (∀ x ∈ od.take axis, x.one = true) → numel ((od.take axis).map ODim.d) = 1 ∧
      lin ((od.take axis).map ODim.d) (bcastIdx ((od.take axis).map ODim.d) oi) = 0 := by
    intro h
    have h1 := hone _ (fun x hx => List.mem_of_mem_take hx) h
    exact ⟨numel_allOne _ h1, lin_allOne _ _ h1⟩
  have hhiSame : (∀ x ∈ od.take axis, x.same = true) → (od.take axis).map ODim.d = outer := fun h =>
    same_eq hhl (fun p hp => hok.same p (by rw [hzip]; exact List.mem_append_left _ hp)) h
  -- partially specified: the remainder is the row of the operand
  have hhiPart : ∀ c modF, (∀ x ∈ (od.take axis).take c, x.one = true) → (∀ x ∈ (od.take axis).drop c, x.same = true) →
      modF = numel (((od.take axis).drop c).map ODim.d) →
      lin ((od.take axis).map ODim.d) (bcastIdx ((od.take axis).map ODim.d) oi) = lin outer oi % modF ∧
        numel ((od.take axis).map ODim.d) = modF ∧ 0 < modF := by
    intro c modF h1 h2 h3
    have hd := same_eq (xs := (od.take axis).drop c) (ds := outer.drop c) (by simp [List.length_drop]; omega)
      (fun p hp => by
        refine hok.same p ?_
        rw [hzip]
        refine List.mem_append_left _ ?_
        have hdz : ((od.take axis).drop c).zip (outer.drop c) = ((od.take axis).zip outer).drop c := by
          unfold List.zip
          rw [List.drop_zipWith]
        rw [hdz] at hp
        exact List.mem_of_mem_drop hp) h2
    have e1 : (od.take axis).map ODim.d = ((od.take axis).take c).map ODim.d ++ outer.drop c := by
      rw [← hd, ← List.map_append, List.take_append_drop]
    have ho : outer = outer.take c ++ outer.drop c := (List.take_append_drop c outer).symm
    have hoi' := hoi
    rw [ho] at hoi'
    obtain ⟨o1, o2, rfl, hi1, hi2⟩ := inShape_split' hoi'
    have h1' := hone _ (fun x hx => List.mem_of_mem_take (List.mem_of_mem_take hx)) h1
    have hll1 : (((od.take axis).take c).map ODim.d).length = o1.length := by
      rw [hi1.length, List.length_map, List.length_take (l := od.take axis), hhl, List.length_take]
    have hb := lin_bounds hi2
    rw [h3, hd, e1, bcastIdx_append hll1, lin_append _ _ _ _ (bcastIdx_length hll1), lin_allOne _ _ h1',
      bcastIdx_self hi2, zero_mul, zero_add, numel_append, numel_allOne _ h1', one_mul]
    refine ⟨?_, rfl, by omega⟩
    have hm := lin_mod _ _ _ _ hi1 hi2
    rw [List.take_append_drop] at hm
    exact hm.symm
  unfold LnOperand.load lnOperand
  simp only
  generalize (bcastKind od orank axis).2 = modF at hkind
  generalize hkk : (bcastKind od orank axis).1 = k at hkind hk
  cases k with
  | unsupported => exact absurd rfl hk
  | scalarScalar =>
    obtain ⟨h1, h2⟩ := hkind
    simp only [bcastLoad]
    rw [if_pos (by rw [hsz, hsplit, numel_append, (hhiOne h1).1, (hloOne h2).1]; decide)]
    refine ⟨_, rfl, fun l _ ii hii _ => ?_⟩
    rw [hidx ii hii, (hhiOne h1).2, (hloOne h2).2]
    simp
  | scalarFull =>
    obtain ⟨h1, h2⟩ := hkind
    have e := hloSame h2
    simp only [bcastLoad]
    rw [if_pos ⟨hj, by rw [hsz, hsplit, numel_append, (hhiOne h1).1, e, one_mul]; exact hjK⟩]
    refine ⟨_, rfl, fun l _ ii hii hl => ?_⟩
    rw [hidx ii hii, (hhiOne h1).2, e, bcastIdx_self hii, hl]
    simp
  | partScalar =>
    obtain ⟨⟨c, h1, h2, h3⟩, h4⟩ := hkind
    obtain ⟨p1, p2, p3⟩ := hhiPart c modF h1 h2 h3
    simp only [bcastLoad]
    rw [if_neg p3.ne', if_pos ⟨Int.emod_nonneg _ p3.ne', by rw [p2]; exact Int.emod_lt_of_pos _ p3, by rw [(hloOne h4).1]; decide⟩]
    refine ⟨_, rfl, fun l _ ii hii _ => ?_⟩
    rw [hidx ii hii, (hloOne h4).2, p1]
    simp
  | partFull =>
    obtain ⟨⟨c, h1, h2, h3⟩, h4⟩ := hkind
    obtain ⟨p1, p2, p3⟩ := hhiPart c modF h1 h2 h3
    have e := hloSame h4
    simp only [bcastLoad]
    rw [if_neg p3.ne', if_pos ⟨Int.emod_nonneg _ p3.ne', by rw [p2]; exact Int.emod_lt_of_pos _ p3, hj, by rw [e]; exact hjK⟩]
    refine ⟨_, rfl, fun l _ ii hii hl => ?_⟩
    rw [hidx ii hii, p1, e, bcastIdx_self hii, hl, add_assoc]
  | fullScalar =>
    obtain ⟨h1, h2⟩ := hkind
    have e := hhiSame h1
    simp only [bcastLoad]
    rw [if_pos ⟨hL.1, by rw [e]; exact hL.2, by rw [(hloOne h2).1]; decide⟩]
    refine ⟨_, rfl, fun l _ ii hii _ => ?_⟩
    rw [hidx ii hii, (hloOne h2).2, e, bcastIdx_self hoi]
    simp
  | fullFull =>
    obtain ⟨h1, h2⟩ := hkind
    have e := hhiSame h1
    have e2 := hloSame h2
    simp only [bcastLoad]
    rw [if_pos ⟨hL.1, by rw [e]; exact hL.2, hj, by rw [e2]; exact hjK⟩]
    refine ⟨_, rfl, fun l _ ii hii hl => ?_⟩
    rw [hidx ii hii, e, e2, bcastIdx_self hoi, bcastIdx_self hii, hl, add_assoc]

end Verif.Lower
