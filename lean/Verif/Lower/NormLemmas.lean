import Verif.Lower.NormModel
import Verif.Lower.NormSpec
import Verif.Lower.SoftmaxLemmas
import Verif.Lower.ReduceTop
import Mathlib.Tactic.FieldSimp
import Mathlib.Tactic.Positivity

/-!
Lemmas for the normalisations.
-/

namespace Verif.Lower

theorem fdiv_eq {a b : ℝ} (h : b ≠ 0) : fdiv a b = some (a / b) := if_neg h

theorem fsqrt_eq {a : ℝ} (h : 0 ≤ a) : fsqrt a = some (Real.sqrt a) := if_neg (not_lt.2 h)

theorem fpow_eq {a b : ℝ} (h : 0 < a) : fpow a b = some (a ^ b) := if_pos h

/-- `E[x^2] - E[x]^2` is the variance. -/
theorem varianceOf_eq (L : List Idx) (f : Idx → ℝ) (hL : L ≠ []) :
    (L.map fun i => f i * f i).sum / L.length - (L.map f).sum / L.length * ((L.map f).sum / L.length) = varianceOf L f := by
  have hn : (L.length : ℝ) ≠ 0 := by
    have := List.length_pos_of_ne_nil hL
    positivity
  unfold varianceOf meanOf
  have key : ∀ (m : ℝ) (L : List Idx), (L.map fun i => (f i - m) ^ 2).sum =
      (L.map fun i => f i * f i).sum - 2 * m * (L.map f).sum + L.length * (m * m) := by
    intro m L
    induction L with
    | nil => simp
    | cons a L ih => simp only [List.map_cons, List.sum_cons, ih, List.length_cons]; push_cast; ring
  rw [key]
  field_simp
  ring

theorem varianceOf_nonneg (L : List Idx) (f : Idx → ℝ) : 0 ≤ varianceOf L f := by
  unfold varianceOf meanOf
  refine div_nonneg (List.sum_nonneg ?_) (by positivity)
  intro x hx
  obtain ⟨q, _, rfl⟩ := List.mem_map.1 hx
  positivity

/-! ### BatchNormalization -/

theorem bnChannel_spec {X scale bias mean var : Mem ℝ} {eps : ℝ} {C c : ℤ} (hc : 0 ≤ c ∧ c < C)
    (h1 : scale.shape = [C]) (h2 : bias.shape = [C]) (h3 : mean.shape = [C]) (h4 : var.shape = [C])
    (hv : 0 < var.data [c] + eps) (inner : List ℤ) (pos : Idx → Idx)
    (hp : ∀ i, InShape i inner → InShape (pos i) X.shape) (o : Mem ℝ) (ho : o.shape = X.shape) (val : Idx → ℝ)
    (hval : ∀ i, InShape i inner → val (pos i) =
      scale.data [c] * ((X.data (pos i) - mean.data [c]) / Real.sqrt (var.data [c] + eps)) + bias.data [c]) :
    ∃ o', bnChannel X scale bias mean var eps c inner pos o = some o' ∧
      MWrote val (fun y => ∃ i ∈ idxs inner, y = pos i) o o' := by
  have hl : ∀ m : Mem ℝ, m.shape = [C] → m.load [c] = some (m.data [c]) := by
    intro m hm
    unfold Mem.load
    rw [if_pos (by rw [hm]; exact inShape_one hc)]
  unfold bnChannel
  rw [hl _ h1, hl _ h2, hl _ h3, hl _ h4]
  simp only [Option.bind_some]
  refine MWrote.list (sh := X.shape) (S := fun i y => y = pos i)
    (f := fun o i => bnPoint X eps (scale.data [c]) (bias.data [c]) (mean.data [c]) (var.data [c]) (pos i) o)
    (idxs inner) o ho ?_
  intro i hi o ho
  have hi' := mem_idxs.1 hi
  obtain ⟨o', e, w⟩ := MWrote.store val (o := o) (p := pos i) (by rw [ho]; exact hp i hi')
  refine ⟨o', ?_, w⟩
  unfold bnPoint Mem.load
  rw [if_pos (hp i hi'), Option.bind_some, fsqrt_eq hv.le, Option.bind_some,
    fdiv_eq (Real.sqrt_pos.2 hv).ne', Option.bind_some, ← hval i hi', e]

theorem batchNorm_spec {X scale bias mean var : Mem ℝ} {eps : ℝ} {C : ℤ} (hX : X.shape ≠ [])
    (hC : (X.shape.length = 1 ∧ 0 < C) ∨ X.shape.getD 1 0 = C ∧ 2 ≤ X.shape.length)
    (h1 : scale.shape = [C]) (h2 : bias.shape = [C]) (h3 : mean.shape = [C]) (h4 : var.shape = [C])
    (hv : ∀ c, 0 ≤ c → c < C → 0 < var.data [c] + eps) (junk : Idx → ℝ) :
    ∃ Y, batchNorm X scale bias mean var eps junk = some Y ∧ Y.shape = X.shape ∧ ∀ i, InShape i X.shape →
      Y.data i = scale.data [channelOf i] *
        ((X.data i - mean.data [channelOf i]) / Real.sqrt (var.data [channelOf i] + eps)) + bias.data [channelOf i] := by
  unfold batchNorm
  match hs : X.shape with
  | [] => exact absurd hs hX
  | [N] =>
    simp only
    have hC' : 0 < C := by
      rcases hC with h | h
      · exact h.2
      · rw [hs] at h; simp at h
    obtain ⟨Y, e, w⟩ := bnChannel_spec (X := X) (c := 0) ⟨le_refl _, hC'⟩ h1 h2 h3 h4 (hv 0 (le_refl _) hC') [N] id
      (by rw [hs]; exact fun i hi => hi) ⟨[N], junk⟩ (by rw [hs])
      (fun i => scale.data [channelOf i] *
        ((X.data i - mean.data [channelOf i]) / Real.sqrt (var.data [channelOf i] + eps)) + bias.data [channelOf i]) (by
        intro i hi
        cases hi with
        | cons hx hn => cases hn; rfl)
    exact ⟨Y, e, w.1, fun i hi => w.2.1 i ⟨i, mem_idxs.2 hi, rfl⟩⟩
  | N :: C' :: sp =>
    simp only
    have hCC : C' = C := by
      rcases hC with h | h
      · rw [hs] at h; simp at h
      · rw [hs] at h; exact h.1
    subst hCC
    obtain ⟨Y, e, w⟩ := MWrote.list (sh := X.shape)
      (S := fun (c : ℤ) y => ∃ i ∈ idxs (N :: sp), y = insertC c i)
      (f := fun o c => bnChannel X scale bias mean var eps c (N :: sp) (insertC c) o)
      (val := fun i => scale.data [channelOf i] *
        ((X.data i - mean.data [channelOf i]) / Real.sqrt (var.data [channelOf i] + eps)) + bias.data [channelOf i])
      (upto C') ⟨N :: C' :: sp, junk⟩ hs.symm (by
        intro c hc o ho
        have hc' := mem_upto.1 hc
        refine bnChannel_spec hc' h1 h2 h3 h4 (hv c hc'.1 hc'.2) (N :: sp) (insertC c) ?_ o ho _ ?_
        · intro i hi
          rw [hs]
          cases hi with
          | cons hx hn => exact inShape_cons.2 ⟨hx, inShape_cons.2 ⟨hc', hn⟩⟩
        · intro i hi
          cases hi with
          | cons hx hn => rfl)
    refine ⟨Y, e, w.1, fun i hi => w.2.1 i ?_⟩
    cases hi with
    | cons hx hn =>
      rename_i n rest
      cases hn with
      | cons hc hsp =>
        rename_i c s
        exact ⟨c, mem_upto.2 hc, n :: s, mem_idxs.2 (inShape_cons.2 ⟨hx, hsp⟩), rfl⟩

/-! ### InstanceNormalization -/

theorem spatialCount_eq (d : ℤ) (ds : List ℤ) : spatialCount (d :: ds) = numel (d :: ds) := by
  unfold spatialCount
  have key : ∀ (ds : List ℤ) (d : ℤ), ds.foldl (· * ·) d = d * numel ds := by
    intro ds
    induction ds with
    | nil => intro d; simp [numel]
    | cons a ds ih => intro d; rw [List.foldl_cons, ih, numel_cons, mul_assoc]
  show ds.foldl (· * ·) d = _
  rw [key, numel_cons]

theorem inSum_eq {X : Mem ℝ} (f : ℝ → ℝ) {n c : ℤ} {sp : List ℤ} (h : ∀ i, InShape i sp → InShape ([n, c] ++ i) X.shape) :
    inSum X f n c sp = some (((idxs sp).map fun i => f (X.data ([n, c] ++ i))).sum) := by
  unfold inSum
  rw [foldlM_val _ (fun acc i => acc + f (X.data ([n, c] ++ i))), foldl_addf_sum, zero_add]
  intro i hi s
  unfold Mem.load
  rw [if_pos (h i (mem_idxs.1 hi))]; rfl

theorem planeOf_perm {N C n c : ℤ} {sp : List ℤ} (hn : 0 ≤ n ∧ n < N) (hc : 0 ≤ c ∧ c < C) (s : Idx) :
    (planeOf (N :: C :: sp) (n :: c :: s)).Perm ((idxs sp).map fun i => [n, c] ++ i) := by
  unfold planeOf
  refine (List.perm_ext_iff_of_nodup ((nodup_idxs _).filter _) ((nodup_idxs _).map fun a b h => by simpa using h)).2 fun j => ?_
  rw [List.mem_filter, mem_idxs, decide_eq_true_eq, List.mem_map]
  constructor
  · rintro ⟨hj, hje⟩
    cases hj with
    | cons h1 h2 =>
      cases h2 with
      | cons h2 h3 =>
        simp only [List.take_succ_cons, List.take_zero, List.cons.injEq, and_true] at hje
        obtain ⟨rfl, rfl⟩ := hje
        exact ⟨_, mem_idxs.2 h3, rfl⟩
  · rintro ⟨i, hi, rfl⟩
    exact ⟨inShape_cons.2 ⟨hn, inShape_cons.2 ⟨hc, mem_idxs.1 hi⟩⟩, rfl⟩

theorem instanceNorm_spec {X scale bias : Mem ℝ} {eps : ℝ} {N C : ℤ} {sp : List ℤ} (hX : X.shape = N :: C :: sp) (hsp : sp ≠ [])
    (hpos : ∀ d ∈ sp, 0 < d) (h1 : scale.shape = [C]) (h2 : bias.shape = [C]) (he : 0 < eps) (junk : Idx → ℝ) :
    ∃ Y, instanceNorm X scale bias eps junk = some Y ∧ Y.shape = X.shape ∧ ∀ i, InShape i X.shape →
      Y.data i = scale.data [channelOf i] * ((X.data i - meanOf (planeOf X.shape i) X.data) /
        Real.sqrt (varianceOf (planeOf X.shape i) X.data + eps)) + bias.data [channelOf i] := by
  unfold instanceNorm
  rw [hX]
  obtain ⟨d, ds, rfl⟩ := List.exists_cons_of_ne_nil hsp
  simp only
  have hnum : ((spatialCount (d :: ds) : ℤ) : ℝ) = ((idxs (d :: ds)).length : ℝ) := by
    rw [spatialCount_eq, ← length_idxs (fun x hx => (hpos x hx).le)]; simp
  have hpos' : 0 < numel (d :: ds) := by
    have key : ∀ L : List ℤ, (∀ d ∈ L, 0 < d) → 0 < numel L := by
      intro L
      induction L with
      | nil => intro _; simp [numel]
      | cons a L ih =>
        intro h
        rw [numel_cons]
        exact mul_pos (h a (by simp)) (ih fun x hx => h x (by simp [hx]))
    exact key _ hpos
  have hlen : 0 < (idxs (d :: ds)).length := by
    have := length_idxs (ds := d :: ds) fun x hx => (hpos x hx).le
    omega
  have hnum0 : ((spatialCount (d :: ds) : ℤ) : ℝ) ≠ 0 := by rw [hnum]; positivity
  obtain ⟨Y, e, w⟩ := MWrote.list (sh := X.shape)
    (S := fun (nc : Idx) y => ∃ i ∈ idxs (d :: ds), y = [nc.getD 0 0, nc.getD 1 0] ++ i)
    (f := fun o (nc : Idx) => inChannel X scale bias eps (spatialCount (d :: ds)) (d :: ds) (nc.getD 0 0) (nc.getD 1 0) o)
    (val := fun i => scale.data [channelOf i] * ((X.data i - meanOf (planeOf X.shape i) X.data) /
        Real.sqrt (varianceOf (planeOf X.shape i) X.data + eps)) + bias.data [channelOf i])
    (idxs [N, C]) ⟨N :: C :: d :: ds, junk⟩ hX.symm (by
      intro nc hnc o ho
      obtain ⟨n, c, hn, hc, rfl⟩ : ∃ n c, (0 ≤ n ∧ n < N) ∧ (0 ≤ c ∧ c < C) ∧ nc = [n, c] := by
        have := mem_idxs.1 hnc
        cases this with
        | cons h h' => cases h' with
          | cons h' h'' => cases h''; exact ⟨_, _, h, h', rfl⟩
      simp only [List.getD_cons_zero, List.getD_cons_succ]
      have hin : ∀ i, InShape i (d :: ds) → InShape ([n, c] ++ i) X.shape := by
        intro i hi
        rw [hX]
        exact inShape_cons.2 ⟨hn, inShape_cons.2 ⟨hc, hi⟩⟩
      have hperm := fun s => planeOf_perm (sp := d :: ds) hn hc s
      have hmean : ∀ s, meanOf (planeOf (N :: C :: d :: ds) (n :: c :: s)) X.data =
          ((idxs (d :: ds)).map fun i => X.data ([n, c] ++ i)).sum / (spatialCount (d :: ds) : ℤ) := by
        intro s
        unfold meanOf
        rw [((hperm s).map X.data).sum_eq, (hperm s).length_eq, List.map_map, List.length_map, hnum]
        rfl
      have hvar : ∀ s, varianceOf (planeOf (N :: C :: d :: ds) (n :: c :: s)) X.data =
          ((idxs (d :: ds)).map fun i =>
            (X.data ([n, c] ++ i) - meanOf (planeOf (N :: C :: d :: ds) (n :: c :: s)) X.data) *
            (X.data ([n, c] ++ i) - meanOf (planeOf (N :: C :: d :: ds) (n :: c :: s)) X.data)).sum / (spatialCount (d :: ds) : ℤ) := by
        intro s
        unfold varianceOf
        generalize meanOf (planeOf (N :: C :: d :: ds) (n :: c :: s)) X.data = m
        unfold meanOf
        rw [((hperm s).map _).sum_eq, (hperm s).length_eq, List.map_map, List.length_map, hnum]
        congr 3
        funext i
        simp only [Function.comp, pow_two]
      have hv0 := varianceOf_nonneg (planeOf (N :: C :: d :: ds) (n :: c :: [])) X.data
      have hv1 : 0 < varianceOf (planeOf (N :: C :: d :: ds) (n :: c :: [])) X.data + eps := by linarith
      have hpl : ∀ s, planeOf (N :: C :: d :: ds) (n :: c :: s) = planeOf (N :: C :: d :: ds) (n :: c :: []) := fun s => rfl
      have hl : ∀ m : Mem ℝ, m.shape = [C] → m.load [c] = some (m.data [c]) := by
        intro m hm
        unfold Mem.load
        rw [if_pos (by rw [hm]; exact inShape_one hc)]
      unfold inChannel
      rw [inSum_eq _ hin, Option.bind_some, fdiv_eq hnum0, Option.bind_some, ← hmean [], inSum_eq _ hin, Option.bind_some,
        fdiv_eq hnum0, Option.bind_some, ← hvar [], fsqrt_eq hv1.le, Option.bind_some, hl _ h1, Option.bind_some,
        fdiv_eq (Real.sqrt_pos.2 hv1).ne', Option.bind_some, hl _ h2, Option.bind_some]
      refine MWrote.list (sh := X.shape) (S := fun i y => y = [n, c] ++ i) _ o ho ?_
      intro i hi o ho
      have hi' := hin i (mem_idxs.1 hi)
      obtain ⟨o', e, w⟩ := MWrote.store (fun i => scale.data [channelOf i] * ((X.data i - meanOf (planeOf X.shape i) X.data) /
        Real.sqrt (varianceOf (planeOf X.shape i) X.data + eps)) + bias.data [channelOf i]) (o := o) (p := [n, c] ++ i)
        (by rw [ho]; exact hi')
      refine ⟨o', ?_, w⟩
      simp only
      unfold Mem.load
      rw [if_pos hi', Option.bind_some, ← e]
      refine congrArg (o.store ([n, c] ++ i)) ?_
      rw [hX]
      show _ = scale.data [c] * ((X.data ([n, c] ++ i) - meanOf (planeOf (N :: C :: d :: ds) (n :: c :: [])) X.data) /
        Real.sqrt (varianceOf (planeOf (N :: C :: d :: ds) (n :: c :: [])) X.data + eps)) + bias.data [c]
      ring)
  refine ⟨Y, e, w.1, fun i hi => ?_⟩
  rw [← hX]
  refine w.2.1 i ?_
  cases hi with
  | cons hx hn =>
    rename_i n rest
    cases hn with
    | cons hc hs =>
      rename_i c s
      exact ⟨[n, c], mem_idxs.2 (inShape_cons.2 ⟨hx, inShape_one hc⟩), s, mem_idxs.2 hs, rfl⟩

/-! ### LRN -/

theorem lrnRange_eq {size C c : ℤ} (_hc : 0 ≤ c ∧ c < C) :
    rangeList (lrnLb size c) (lrnUb size C c) = lrnWindow size C c := by
  unfold lrnWindow
  refine sorted_ext (sorted_rangeList _ _) ((sorted_upto _).filter _) fun j => ?_
  rw [mem_rangeList, List.mem_filter, mem_upto, decide_eq_true_eq]
  have hf : ⌊((size : ℚ) - 1) / 2⌋ = (size - 1) / 2 := by
    rw [Int.floor_eq_iff]
    have h1 := Int.mul_ediv_add_emod (size - 1) 2
    have h2 := Int.emod_nonneg (size - 1) (by decide : (2 : ℤ) ≠ 0)
    have h3 := Int.emod_lt_of_pos (size - 1) (by decide : (0 : ℤ) < 2)
    have h4 : 2 * ((size - 1) / 2) ≤ size - 1 ∧ size - 1 < 2 * ((size - 1) / 2) + 2 := by omega
    have h5 : (2 : ℚ) * ((size - 1) / 2 : ℤ) ≤ size - 1 := by exact_mod_cast h4.1
    have h6 : (size : ℚ) - 1 < 2 * ((size - 1) / 2 : ℤ) + 2 := by exact_mod_cast h4.2
    constructor <;> linarith
  have hce : ⌈((size : ℚ) - 1) / 2⌉ = cdiv (size - 1) 2 := by
    rw [Int.ceil_eq_iff]
    have h4 : 2 * cdiv (size - 1) 2 - 2 < size - 1 ∧ size - 1 ≤ 2 * cdiv (size - 1) 2 := by unfold cdiv; omega
    have h5 : (2 : ℚ) * (cdiv (size - 1) 2 : ℤ) - 2 < size - 1 := by exact_mod_cast h4.1
    have h6 : (size : ℚ) - 1 ≤ 2 * (cdiv (size - 1) 2 : ℤ) := by exact_mod_cast h4.2
    constructor <;> linarith
  rw [hf, hce]
  unfold lrnLb lrnUb
  omega

theorem inShape_set {dims : List ℤ} {i : Idx} (h : InShape i dims) {j : ℤ} (hj : 0 ≤ j ∧ j < dims.getD 1 0) :
    InShape (i.set 1 j) dims := by
  match dims, i, h with
  | [], [], h => exact h
  | [_], [_], h => exact h
  | d :: c :: ds, x :: y :: xs, h =>
    cases h with
    | cons h1 h2 =>
      cases h2 with
      | cons h2 h3 =>
        exact inShape_cons.2 ⟨h1, inShape_cons.2 ⟨hj, h3⟩⟩

theorem lrn_spec {X : Mem ℝ} {alpha beta bias : ℝ} {size : ℤ} (hr : 2 ≤ X.shape.length) (hs : 0 < size) (ha : 0 ≤ alpha)
    (hb : 0 < bias) (junk : Idx → ℝ) :
    ∃ Y, lrn X alpha beta bias size junk = some Y ∧ Y.shape = X.shape ∧ ∀ i, InShape i X.shape →
      Y.data i = X.data i / (bias + alpha / size *
        ((lrnWindow size (X.shape.getD 1 0) (channelOf i)).map fun j => X.data (i.set 1 j) ^ 2).sum) ^ beta := by
  unfold lrn
  refine fill_spec ⟨X.shape, junk⟩ _ _ fun i hi => ?_
  simp only at hi
  have hc : 0 ≤ channelOf i ∧ channelOf i < X.shape.getD 1 0 := by
    match hd : X.shape, i, hr, hi with
    | [], _, hr, _ => simp at hr
    | [_], _, hr, _ => simp at hr
    | d :: c :: ds, [], _, h => cases h
    | d :: c :: ds, [_], _, h => cases h with | cons _ h => cases h
    | d :: c :: ds, x :: y :: xs, _, h =>
      cases h with
      | cons h1 h2 =>
        cases h2 with
        | cons h2 h3 => exact h2
  have hsum0 : 0 ≤ ((lrnWindow size (X.shape.getD 1 0) (channelOf i)).map fun j => X.data (i.set 1 j) ^ 2).sum := by
    refine List.sum_nonneg ?_
    intro x hx
    obtain ⟨q, _, rfl⟩ := List.mem_map.1 hx
    positivity
  have hs' : (0 : ℝ) < size := by exact_mod_cast hs
  have hbase : 0 < bias + alpha / size *
        ((lrnWindow size (X.shape.getD 1 0) (channelOf i)).map fun j => X.data (i.set 1 j) ^ 2).sum := by
    have := mul_nonneg (div_nonneg ha hs'.le) hsum0
    linarith
  unfold lrnPoint
  have hr := lrnRange_eq (size := size) hc
  unfold channelOf at hr
  rw [hr, foldlM_val _ (fun acc j => acc + X.data (i.set 1 j) ^ 2), foldl_addf_sum, zero_add, Option.bind_some]
  · unfold channelOf at hbase ⊢
    unfold Mem.load
    rw [if_pos hi, Option.bind_some, fpow_eq hbase, Option.bind_some, fdiv_eq (Real.rpow_pos_of_pos hbase _).ne']
  · intro j hj s
    unfold lrnWindow at hj
    rw [List.mem_filter, mem_upto] at hj
    unfold Mem.load
    rw [if_pos (inShape_set hi hj.1)]
    simp [pow_two]

end Verif.Lower
