import Verif.ConvMatMul.I2CTop
import Verif.Rewrite.GemmLemmas
import Verif.ConvTranspose.WeightLemmas

/-! # The patterns that replace Conv by a matrix product -/

namespace Verif.ConvMatMul

open Verif.Rewrite
open Verif.ConvTranspose (reshape_lit)

variable {V : Type} [Inhabited V] {A : Alg V}

/-! ### Reshape with an open extent -/

theorem reshape_req {x : Tensor V} {q : List (Option ℕ)} {s : List ℕ} (hf : FitsDims q s) (hc : q.count none ≤ 1)
    (h0 : ∀ d ∈ s, 0 < d) (hp : x.shape.prod = s.prod) :
    ∃ y, reshape x false (q.map reqOf) = some y ∧ x.retag s = some y := by
  have hr : x.retag s = some ⟨s, x.data, by rw [x.wf, hp]⟩ := by
    unfold Tensor.retag
    rw [dif_pos hp]
  have hv : ∀ v, some v ∈ q → 0 < v := by
    intro v hm
    obtain ⟨i, hi, he⟩ := List.getElem_of_mem hm
    have h1 := List.forall₂_iff_get.1 hf
    have h2 := h1.2 i hi (by rw [← h1.1]; exact hi)
    simp only [List.get_eq_getElem, he] at h2
    have h3 : v = s[i]'(by rw [← h1.1]; exact hi) := by simpa using h2
    rw [h3]
    exact h0 _ (List.getElem_mem _)
  have hq : ∀ (k : ℕ) (q : List (Option ℕ)), (∀ v, some v ∈ q → 0 < v) →
      reqDims x.shape false k (q.map reqOf) = some q := by
    intro k q
    induction q generalizing k with
    | nil => intro _; rfl
    | cons o q ih =>
      intro h
      rw [List.map_cons]
      unfold reqDims
      rw [ih _ fun v hv => h v (by simp [hv])]
      cases o with
      | none => rfl
      | some v =>
        have := h v (by simp)
        have e : reqOf (some v) = (v : ℤ) := rfl
        rw [e, if_neg (by omega), if_neg (by omega), if_pos (by omega)]
        simp
  refine ⟨_, reshape_some.2 ⟨hr, q, hq 0 q hv, hf, hc, fun _ v hm => ?_⟩, hr⟩
  have := hv v hm
  omega

theorem collapsed_prod {t : List (Option ℕ)} {s : List ℕ} (h : FitsDims t s) :
    collapsed t = none ∨ collapsed t = some s.prod := by
  unfold collapsed
  cases hm : t.mapM id with
  | none => left; rfl
  | some l =>
    right
    rw [Option.map_some]
    congr 2
    have h1 := mapM_forall₂.1 hm
    clear hm
    induction h generalizing l with
    | nil => cases h1; rfl
    | cons hx _ ih =>
      cases h1 with
      | cons hy ht =>
        rw [ih _ ht]
        congr 1
        simp only [id] at hy
        subst hy
        simpa using hx

theorem fits_some (s : List ℕ) : FitsDims (s.map some) s := by
  unfold FitsDims
  rw [List.forall₂_map_left_iff, List.forall₂_same]
  intro x _
  exact .inr rfl

theorem fits_append {a b : List (Option ℕ)} {s t : List ℕ} (h : FitsDims a s) (g : FitsDims b t) :
    FitsDims (a ++ b) (s ++ t) := List.rel_append h g

theorem fits_take {a : List (Option ℕ)} {s : List ℕ} (n : ℕ) (h : FitsDims a s) : FitsDims (a.take n) (s.take n) :=
  List.forall₂_take n h

theorem fits_drop {a : List (Option ℕ)} {s : List ℕ} (n : ℕ) (h : FitsDims a s) : FitsDims (a.drop n) (s.drop n) :=
  List.forall₂_drop n h

theorem count_some (s : List ℕ) : (s.map some).count none = 0 := by
  rw [List.count_eq_zero]
  simp

theorem prod_pos {s : List ℕ} (h : ∀ d ∈ s, 0 < d) : 0 < s.prod :=
  Nat.pos_of_ne_zero fun e => by
    obtain h0 := List.prod_eq_zero_iff.1 e
    exact absurd (h 0 h0) (by omega)

/-- Collapsing the last axes. -/
theorem ndim_low {t : List (Option ℕ)} {x : Tensor V} {n : ℕ} (hf : FitsDims t x.shape) (h0 : ∀ d ∈ x.shape, 0 < d)
    (hn : n + 1 ≤ x.shape.length) : ∃ t' y, reshapeToNDim t x (n + 1) false = some (t', y) ∧
      x.retag (x.shape.take n ++ [(x.shape.drop n).prod]) = some y ∧ FitsDims t' y.shape ∧ t'.take n = t.take n := by
  have hp : x.shape.prod = (x.shape.take n ++ [(x.shape.drop n).prod]).prod := by
    rw [List.prod_append, List.prod_cons, List.prod_nil, mul_one, ← List.prod_append, List.take_append_drop]
  have htl : t.length = x.shape.length := hf.length_eq
  unfold reshapeToNDim
  simp only
  rw [if_neg (by omega)]
  by_cases he : x.shape.length = n + 1
  · rw [if_pos he]
    refine ⟨t, x, rfl, ?_, hf, rfl⟩
    have h1 : (x.shape.drop n).length = 1 := by rw [List.length_drop]; omega
    obtain ⟨d, hd⟩ := List.length_eq_one_iff.1 h1
    rw [hd, List.prod_cons, List.prod_nil, mul_one, ← hd, List.take_append_drop]
    exact retag_self x
  · rw [if_neg he, if_neg (by simp)]
    have e1 : cut x.shape 0 (n + 1 - 1) = x.shape.take n := by unfold cut; simp
    have e2 : cut t 0 (n + 1 - 1) = t.take n := by unfold cut; simp
    have e3 : cut t (n + 1 - 1) x.shape.length = t.drop n := by
      unfold cut
      rw [Nat.add_sub_cancel]
      apply List.take_of_length_le
      rw [List.length_drop]
      omega
    rw [e1, e2, e3]
    have hcl := collapsed_prod (fits_drop n hf)
    have hfc : FitsDims [collapsed (t.drop n)] [(x.shape.drop n).prod] := by
      refine .cons ?_ .nil
      exact hcl
    have hm : ((x.shape.take n).map fun (d : ℕ) => (d : ℤ)) ++ [reqOf (collapsed (t.drop n))] =
        ((x.shape.take n).map some ++ [collapsed (t.drop n)]).map reqOf := by
      rw [List.map_append, List.map_map]
      rfl
    obtain ⟨y, h1, h2⟩ := reshape_req (x := x) (fits_append (fits_some (x.shape.take n)) hfc)
      (by rw [List.count_append, count_some, zero_add]; exact List.count_le_length.trans (by simp))
      (by
        intro d hd
        rcases List.mem_append.1 hd with hd | hd
        · exact h0 d (List.mem_of_mem_take hd)
        · rw [List.mem_singleton] at hd
          rw [hd]
          exact prod_pos fun e he => h0 e (List.mem_of_mem_drop he)) hp
    rw [hm, h1]
    refine ⟨_, y, rfl, h2, ?_, ?_⟩
    · rw [retag_shape h2]
      exact fits_append (fits_take n hf) hfc
    · rw [List.take_append_of_le_length (by rw [List.length_take]; omega), List.take_take, Nat.min_self]

/-- Collapsing the first axes. -/
theorem ndim_high {t : List (Option ℕ)} {x : Tensor V} {n : ℕ} (hf : FitsDims t x.shape) (h0 : ∀ d ∈ x.shape, 0 < d)
    (hn : n + 1 ≤ x.shape.length) : ∃ t' y, reshapeToNDim t x (n + 1) true = some (t', y) ∧
      x.retag ((x.shape.take (x.shape.length - n)).prod :: x.shape.drop (x.shape.length - n)) = some y ∧
      FitsDims t' y.shape := by
  have hp : x.shape.prod =
      ((x.shape.take (x.shape.length - n)).prod :: x.shape.drop (x.shape.length - n)).prod := by
    rw [List.prod_cons, ← List.prod_append, List.take_append_drop]
  have htl : t.length = x.shape.length := hf.length_eq
  unfold reshapeToNDim
  simp only
  rw [if_neg (by omega)]
  by_cases he : x.shape.length = n + 1
  · rw [if_pos he]
    refine ⟨t, x, rfl, ?_, hf⟩
    have hxs : x.shape.length - n = 1 := by omega
    rw [hxs]
    have : ∀ l : List ℕ, l.length = n + 1 → (l.take 1).prod :: l.drop 1 = l := by
      intro l hl
      cases l with
      | nil => simp at hl
      | cons a l => simp
    rw [this _ he]
    exact retag_self x
  · rw [if_neg he, if_pos trivial, Nat.add_sub_cancel]
    have e1 : cut x.shape (x.shape.length - n) x.shape.length = x.shape.drop (x.shape.length - n) := by
      unfold cut
      apply List.take_of_length_le
      rw [List.length_drop]
    have e2 : cut t (x.shape.length - n) x.shape.length = t.drop (x.shape.length - n) := by
      unfold cut
      apply List.take_of_length_le
      rw [List.length_drop]
      omega
    have e3 : cut t 0 (x.shape.length - n) = t.take (x.shape.length - n) := by unfold cut; simp
    rw [e1, e2, e3]
    have hcl := collapsed_prod (fits_take (x.shape.length - n) hf)
    have hm : (reqOf (collapsed (t.take (x.shape.length - n))) ::
        (x.shape.drop (x.shape.length - n)).map fun (d : ℕ) => (d : ℤ)) =
        (collapsed (t.take (x.shape.length - n)) :: (x.shape.drop (x.shape.length - n)).map some).map reqOf := by
      rw [List.map_cons, List.map_map]
      rfl
    obtain ⟨y, h1, h2⟩ := reshape_req (x := x)
      (q := collapsed (t.take (x.shape.length - n)) :: (x.shape.drop (x.shape.length - n)).map some)
      (List.Forall₂.cons hcl (fits_some (x.shape.drop (x.shape.length - n))))
      (by
        rw [List.count_cons, count_some, zero_add]
        split <;> omega)
      (by
        intro d hd
        rcases List.mem_cons.1 hd with rfl | hd
        · exact prod_pos fun e he => h0 e (List.mem_of_mem_take he)
        · exact h0 d (List.mem_of_mem_drop hd)) hp
    rw [hm, h1]
    refine ⟨_, y, rfl, h2, ?_⟩
    rw [retag_shape h2]
    exact List.Forall₂.cons hcl (fits_drop _ hf)

/-! ### Stacks of matrices -/

/-- A stack of `N` matrices with elements `g`; a stack of one matrix may be that matrix. -/
def Stack (c : Tensor V) (N K Q : ℕ) (g : ℕ → ℕ → ℕ → V) : Prop :=
  (c.shape = [N, K, Q] ∧ ∀ n k q, n < N → k < K → q < Q → c.get [n, k, q] = g n k q) ∨
    (N = 1 ∧ c.shape = [K, Q] ∧ ∀ k q, k < K → q < Q → c.get [k, q] = g 0 k q)

theorem matmul_three {a b : Tensor V} {p q n s : ℕ} (ha : a.shape = [p, q]) (hb : b.shape = [n, q, s]) :
    matmul A a b = some (build [n, p, s] fun idx => sumOver A (List.range q) fun k =>
      A.bin .mul (a.get [idx.getD 1 0, k]) (b.get [idx.getD 0 0, k, idx.getD 2 0])) := by
  rw [matmul_some, ha, hb]
  refine ⟨⟨by simp, by simp, by simp [matOf]⟩, [n], ?_, ?_⟩
  · show bshape [] [n] = some [n]
    unfold bshape padOnes bdims bdims
    simp only [List.length_nil, List.length_singleton]
    by_cases h : (1 : ℕ) = n
    · subst h; rfl
    · simp [bdims, bdim, h]
  · show build [n, p, s] _ = build [n, p, s] _
    refine build_congr fun i hi => ?_
    obtain ⟨j0, j1, j2, rfl, g0, g1, g2⟩ := three hi
    refine sumOver_congr fun k hk => ?_
    have e : bidx [n] [j0] = [j0] := bidx_self (by simpa using g0)
    have e0 : bidx [] [j0] = [] := by unfold bidx; simp
    simp only [matOf, batchOf, List.length_cons, List.length_nil, Nat.zero_add, Nat.reduceAdd, Nat.sub_self,
      Nat.reduceSub, List.take_zero, List.drop_zero, List.take_succ_cons, List.drop_succ_cons, List.getD_cons_zero,
      List.getD_cons_succ, e, e0, List.nil_append, List.cons_append]

theorem matmul_stack {w c : Tensor V} {M N K Q : ℕ} {g : ℕ → ℕ → ℕ → V} (hw : w.shape = [M, K])
    (hc : Stack c N K Q g) : ∃ y, matmul A w c = some y ∧ Stack y N M Q fun n m q =>
      sumOver A (List.range K) fun k => A.bin .mul (w.get [m, k]) (g n k q) := by
  rcases hc with ⟨hs, hg⟩ | ⟨h1, hs, hg⟩
  · refine ⟨_, matmul_three hw hs, .inl ⟨rfl, ?_⟩⟩
    intro n m q hn hm hq
    rw [get_build _ (by simp only [inBounds_cons, inBounds_nil, and_true]; exact ⟨hn, hm, hq⟩)]
    refine sumOver_congr fun k hk => ?_
    simp only [List.getD_cons_zero, List.getD_cons_succ]
    rw [hg n k q hn (List.mem_range.1 hk) hq]
  · refine ⟨_, by rw [matmul_two hw hs, if_pos rfl], .inr ⟨h1, rfl, ?_⟩⟩
    intro m q hm hq
    rw [get_build _ (by simp only [inBounds_cons, inBounds_nil, and_true]; exact ⟨hm, hq⟩)]
    refine sumOver_congr fun k hk => ?_
    simp only [List.getD_cons_zero, List.getD_cons_succ]
    rw [hg k q (List.mem_range.1 hk) hq]

theorem unsqueeze_neg {t : Tensor V} {d : ℕ} (ht : t.shape = [d]) :
    ∃ u, unsqueeze t [-1] = some u ∧ u.shape = chan d 1 ∧ u.data = t.data := by
  obtain ⟨u, h1, h2, h3⟩ := retag_chan (k := 0) (l := 1) ht
  refine ⟨u, unsqueeze_some.2 ⟨[1], ?_, by simp, ?_⟩, h2, h3⟩
  · rw [ht]; rfl
  · rw [ht]; exact h1

theorem addBias_stack {y : Tensor V} {b : Option (Tensor V)} {M N Q : ℕ} {g : ℕ → ℕ → ℕ → V} (hy : Stack y N M Q g)
    (hb : ∀ t, b = some t → t.shape = [M]) : ∃ z, addBias A y b = some z ∧ Stack z N M Q fun n m q =>
      addOpt A (g n m q) (b.map fun t => t.get [m]) := by
  cases b with
  | none => exact ⟨y, rfl, hy⟩
  | some t =>
    have ht := hb t rfl
    obtain ⟨u, h1, h2, h3⟩ := unsqueeze_neg ht
    have e : addBias A y (some t) = binary (A.bin .add) y u := by
      show (unsqueeze t [-1]).bind _ = _
      rw [h1, Option.bind_some]
    rw [e]
    rcases hy with ⟨hs, hg⟩ | ⟨hn1, hs, hg⟩
    · refine ⟨_, binary_chan (pre := [N]) (rest := [Q]) hs h2 rfl, .inl ⟨rfl, ?_⟩⟩
      intro n m q hn hm hq
      rw [get_build _ (by
        simp only [List.singleton_append, inBounds_cons, inBounds_nil, and_true]; exact ⟨hn, hm, hq⟩)]
      simp only [List.length_singleton, List.getD_cons_zero, List.getD_cons_succ, Option.map_some]
      rw [hg n m q hn hm hq, h3, ← vec_get ht]
      rfl
    · refine ⟨_, binary_chan (pre := []) (rest := [Q]) hs h2 rfl, .inr ⟨hn1, rfl, ?_⟩⟩
      intro m q hm hq
      rw [get_build _ (by
        simp only [List.nil_append, inBounds_cons, inBounds_nil, and_true]; exact ⟨hm, hq⟩)]
      simp only [List.length_nil, List.getD_cons_zero, Option.map_some]
      rw [hg m q hm hq, h3, ← vec_get ht]
      rfl

theorem retag_get {x y : Tensor V} {s i j : List ℕ} (h : x.retag s = some y)
    (he : rowMajor s i = rowMajor x.shape j) : y.get i = x.get j := by
  unfold Tensor.get
  rw [retag_shape h, retag_data h, he]

theorem retag_ok {x : Tensor V} {s : List ℕ} (h : x.shape.prod = s.prod) : ∃ y, x.retag s = some y := by
  unfold Tensor.retag
  rw [dif_pos h]
  exact ⟨_, rfl⟩

theorem reshape_stack {y : Tensor V} {M N : ℕ} {outs : List ℕ} {g : ℕ → ℕ → ℕ → V} (hy : Stack y N M outs.prod g)
    (hN : 0 < N) (hM : 0 < M) (ho : ∀ d ∈ outs, 0 < d) :
    reshape y false ((N : ℤ) :: (M : ℤ) :: outs.map fun (d : ℕ) => (d : ℤ)) =
      some (build (N :: M :: outs) fun i => g (i.getD 0 0) (i.getD 1 0) (rowMajor outs (i.drop 2))) := by
  have hl : reshape y false ((N : ℤ) :: (M : ℤ) :: outs.map fun (d : ℕ) => (d : ℤ)) = y.retag (N :: M :: outs) := by
    rw [← reshape_lit (x := y) (s := N :: M :: outs)]
    · rfl
    · intro d hd
      simp only [List.mem_cons] at hd
      rcases hd with rfl | rfl | hd
      · exact hN
      · exact hM
      · exact ho d hd
  rw [hl]
  rcases hy with ⟨hs, hg⟩ | ⟨hn1, hs, hg⟩
  · obtain ⟨z, hz⟩ := retag_ok (x := y) (s := N :: M :: outs) (by rw [hs]; simp)
    rw [hz]
    congr 1
    refine eq_build (retag_shape hz) fun i hi => ?_
    match i with
    | [] => simp at hi
    | [_] => simp at hi
    | n :: m :: os =>
      rw [inBounds_cons, inBounds_cons] at hi
      have hlt := rowMajor_lt hi.2.2
      rw [retag_get hz (j := [n, m, rowMajor outs os]), hg n m _ hi.1 hi.2.1 hlt]
      · rfl
      · rw [hs]
        simp [rowMajor]
  · subst hn1
    obtain ⟨z, hz⟩ := retag_ok (x := y) (s := 1 :: M :: outs) (by rw [hs]; simp)
    rw [hz]
    congr 1
    refine eq_build (retag_shape hz) fun i hi => ?_
    match i with
    | [] => simp at hi
    | [_] => simp at hi
    | n :: m :: os =>
      rw [inBounds_cons, inBounds_cons] at hi
      have hlt := rowMajor_lt hi.2.2
      have hn : n = 0 := by omega
      subst hn
      rw [retag_get hz (j := [m, rowMajor outs os]), hg m _ hi.2.1 hlt]
      · rfl
      · rw [hs]
        simp [rowMajor]

/-- Squeezing a batch of one image. -/
theorem stack_squeeze {c : Tensor V} {t : List (Option ℕ)} {N K Q : ℕ} {g : ℕ → ℕ → ℕ → V} (hs : c.shape = [N, K, Q])
    (hg : ∀ n k q, n < N → k < K → q < Q → c.get [n, k, q] = g n k q) (hN : N = 1) (hK : 0 < K) (hQ : 0 < Q)
    (ht : FitsDims t c.shape) : ∃ y, (reshapeToNDim t c 2 true).map Prod.snd = some y ∧ Stack y N K Q g := by
  subst hN
  obtain ⟨t', y, h1, h2, -⟩ := ndim_high (n := 1) ht
    (by rw [hs]; intro d hd; simp at hd; omega) (by rw [hs]; simp)
  rw [h1]
  refine ⟨y, rfl, .inr ⟨rfl, ?_, ?_⟩⟩
  · rw [retag_shape h2, hs]
    simp
  · intro k q hk hq
    rw [retag_get h2 (j := [0, k, q]), hg 0 k q (by omega) hk hq]
    rw [hs]
    simp [rowMajor]

/-! ### Conv -/

theorem conv_group1 {ax : List WinAx} {m cg : ℕ} {ks : List ℕ} {x w : Tensor V} {idx : List ℕ}
    (hm : idx.getD 1 0 < m) (hcomm : ∀ u v, A.bin .mul u v = A.bin .mul v u) :
    convDot A ax 1 m cg ks x w idx = sumOver A (List.range (cg :: ks).prod) fun p =>
      A.bin .mul (w.get (idx.getD 1 0 :: unrank (cg :: ks) p))
        (under A ax x (idx.getD 0 0) ((unrank (cg :: ks) p).getD 0 0) (idx.drop 2) ((unrank (cg :: ks) p).drop 1)) := by
  unfold convDot
  rw [allIndices_eq_map_unrank]
  unfold sumOver
  rw [List.foldl_map]
  congr 1
  funext acc p
  simp only
  rw [hcomm, Nat.div_one, Nat.div_eq_of_lt hm, zero_mul, zero_add]
  rfl

theorem cut_prod {a b c : ℕ} : a * b * c = [a, b, c].prod := by simp; ring

/-- The pattern with Im2Col computes Conv. -/
theorem convIm2Col_spec {opt : Bool} {junk : V} {a : WinAttrs} {t : List (Option ℕ)} {x w y : Tensor V}
    {b : Option (Tensor V)} (hcomm : ∀ u v, A.bin .mul u v = A.bin .mul v u) (h : conv A a x w b = some y)
    {fast st : Bool} (hsh : shouldIm2Col fast a t st = true) (ht : FitsDims t x.shape) (hc : a.ceil = false)
    (hap : a.autoPad ∈ ["NOTSET", "VALID", "SAME_UPPER", "SAME_LOWER"])
    (hx0 : ∀ d ∈ x.shape, 0 < d) (hw0 : ∀ d ∈ w.shape, 0 < d) :
    convIm2Col A opt junk a t x w b = some y := by
  obtain ⟨N, C, xs, M, cg, ks, ax, hx, hw, hax, ⟨-, hC, -, hker⟩, hb, rfl⟩ := conv_some.1 h
  unfold shouldIm2Col at hsh
  simp only [Bool.and_eq_true, decide_eq_true_eq] at hsh
  obtain ⟨⟨⟨-, ht4⟩, hg1⟩, -⟩ := hsh
  rw [hg1, mul_one] at hC
  subst hC
  have hxl : x.shape.length = 4 := by rw [← ht4]; exact ht.length_eq.symm
  have hr := axes_irel hax hc hap (fun d hd => hx0 d (by rw [hx]; simp [hd])) fun d hd => hw0 d (by rw [hw]; simp [hd])
  obtain ⟨hal, hkl, hget⟩ := winAxes_get hax
  rw [hx, List.length_cons, List.length_cons] at hxl
  have hN := hx0 N (by rw [hx]; simp)
  have hM := hw0 M (by rw [hw]; simp)
  have hKpos : 0 < (C :: ks).prod := prod_pos fun d hd => hw0 d (by rw [hw]; exact List.mem_cons_of_mem _ hd)
  have hopos : ∀ d ∈ ax.map WinAx.out, 0 < d := by
    intro d hd
    obtain ⟨e, he, rfl⟩ := List.mem_map.1 hd
    exact hr.pos e he
  have hQpos : 0 < (ax.map WinAx.out).prod := prod_pos hopos
  -- the columns
  have him := im2col_spec (A := A) (opt := opt) (junk := junk) hx hr fun d hd => hx0 d (by rw [hx]; simp [hd])
  have hdef := def_get (A := A) (ax := ax) (ks := ks) hx
  have hstack : ∃ c, imCols A opt junk a t x ks ([C] ++ ks).prod = some c ∧ Stack c N (C :: ks).prod
      (ax.map WinAx.out).prod fun n k q => under A ax x n ((unrank (C :: ks) k).getD 0 0)
        (unrank (ax.map WinAx.out) q) ((unrank (C :: ks) k).drop 1) := by
    unfold imCols
    rw [hker, him, Option.bind_some]
    have hg : ∀ n k q, n < N → k < (C :: ks).prod → q < (ax.map WinAx.out).prod →
        (im2colDef A ax ks x).get [n, k, q] = under A ax x n ((unrank (C :: ks) k).getD 0 0)
        (unrank (ax.map WinAx.out) q) ((unrank (C :: ks) k).drop 1) := by
      intro n k q hn hk hq
      rw [hdef, get_build _ (by simp only [inBounds_cons, inBounds_nil, and_true]; exact ⟨hn, hk, hq⟩)]
      rfl
    have hs : (im2colDef A ax ks x).shape = [N, (C :: ks).prod, (ax.map WinAx.out).prod] := by rw [hdef]; rfl
    by_cases hu : t.head? = some (some 1)
    · rw [if_pos hu]
      have hN1 : N = 1 := by
        rw [hx] at ht
        cases ht with
        | cons h1 _ =>
          simp at hu
          subst hu
          simp at h1
          exact h1.symm
      refine stack_squeeze hs hg hN1 hKpos hQpos ?_
      rw [hs]
      exact .cons (.inl rfl) (.cons (.inr rfl) (.cons (.inl rfl) .nil))
    · rw [if_neg hu]
      exact ⟨_, rfl, .inl ⟨hs, hg⟩⟩
  obtain ⟨c, hc1, hc2⟩ := hstack
  obtain ⟨h', w', rfl⟩ : ∃ h' w', xs = [h', w'] := by
    match xs, hxl with
    | [h', w'], _ => exact ⟨h', w', rfl⟩
  obtain ⟨kh, kw, rfl⟩ : ∃ kh kw, ks = [kh, kw] := by
    match ks, hkl with
    | [kh, kw], _ => exact ⟨kh, kw, rfl⟩
  obtain ⟨wa, wb, rfl⟩ : ∃ wa wb, ax = [wa, wb] := by
    match ax, hal with
    | [wa, wb], _ => exact ⟨wa, wb, rfl⟩
  have hwr : ∃ w2, reshape w false [(M : ℤ), ((C :: [kh, kw]).prod : ℕ)] = some w2 ∧
      w.retag [M, (C :: [kh, kw]).prod] = some w2 := by
    obtain ⟨w2, h2⟩ := retag_ok (x := w) (s := [M, (C :: [kh, kw]).prod]) (by rw [hw]; simp)
    refine ⟨w2, ?_, h2⟩
    rw [← h2, ← reshape_lit (x := w) (s := [M, (C :: [kh, kw]).prod])]
    · rfl
    · intro d hd
      simp only [List.mem_cons, List.not_mem_nil, or_false] at hd
      rcases hd with rfl | rfl
      · exact hM
      · exact hKpos
  obtain ⟨w2, hw1, hw2⟩ := hwr
  have hw2s : w2.shape = [M, (C :: [kh, kw]).prod] := retag_shape hw2
  obtain ⟨y1, hy1, hy2⟩ := matmul_stack (A := A) hw2s hc2
  obtain ⟨y2, hy3, hy4⟩ := addBias_stack (A := A) hy2 hb
  have hfin := reshape_stack hy4 hN hM hopos
  have houts : outExtents a h' w' kh kw = ([wa, wb].map WinAx.out).map fun (d : ℕ) => (d : ℤ) := by
    unfold outExtents
    have hpos : ∀ d ∈ [h', w'], 0 < d := fun d hd => hx0 d (by rw [hx]; simp at hd ⊢; tauto)
    have hkpos : ∀ d ∈ [kh, kw], 0 < d := fun d hd => hw0 d (by rw [hw]; simp at hd ⊢; tauto)
    have g0 := (winAxis_rel hap (hpos h' (by simp)) (hkpos kh (by simp)) (hc ▸ hget 0 (by simp))).2.2.2.2
    have g1 := (winAxis_rel hap (hpos w' (by simp)) (hkpos kw (by simp)) (hc ▸ hget 1 (by simp))).2.2.2.2
    simp only [List.getElem_cons_zero, List.getElem_cons_succ, List.length_cons, List.length_nil, Nat.zero_add,
      Nat.reduceAdd, Nat.add_zero] at g0 g1
    rw [g0, g1]
    rfl
  unfold convIm2Col
  rw [hx, hw]
  simp only [List.getD_cons_zero, List.getD_cons_succ, List.drop_succ_cons, List.drop_zero]
  rw [cut_prod]
  rw [List.singleton_append] at hc1
  rw [hc1, Option.bind_some, hw1, Option.bind_some, hy1, Option.bind_some, hy3, Option.bind_some, houts, hfin]
  congr 1
  refine build_congr fun i hi => ?_
  match i with
  | [] => simp at hi
  | [_] => simp at hi
  | n :: m :: os =>
    rw [inBounds_cons, inBounds_cons] at hi
    simp only [List.getD_cons_zero, List.getD_cons_succ, List.drop_succ_cons, List.drop_zero]
    congr 1
    rw [hg1, conv_group1 (by simpa using hi.2.1) hcomm]
    refine sumOver_congr fun p hp => ?_
    have hp := List.mem_range.1 hp
    simp only [List.getD_cons_zero, List.getD_cons_succ, List.drop_succ_cons, List.drop_zero]
    rw [unrank_rowMajor hi.2.2]
    congr 1
    refine retag_get hw2 ?_
    rw [hw]
    simp only [rowMajor, List.prod_cons, List.prod_nil]
    rw [rowMajor_unrank hp]
    simp

/-! ### Kernels of one element -/

theorem hasDefault_elim {l : Option (List ℕ)} {n d i : ℕ} (h : hasDefault l n d = true) (hi : i < n) :
    l.elim d (·.getD i 0) = d := by
  cases l with
  | none => rfl
  | some l =>
    unfold hasDefault at h
    simp only [Option.elim, Bool.and_eq_true, decide_eq_true_eq, List.all_eq_true] at h
    show l.getD i 0 = d
    rw [List.getD_eq_getElem _ _ (by omega)]
    exact h.2 _ (List.getElem_mem _)

theorem should_axes {a : WinAttrs} {tw : List (Option ℕ)} {xs ks : List ℕ} {ax : List WinAx}
    (h : should1x1 a tw = true) (hl : tw.length = ks.length + 2) (hks : ks = List.replicate ks.length 1)
    (hc : a.ceil = false) (hx0 : ∀ d ∈ xs, 0 < d) (hax : winAxes a xs ks = some ax) :
    ax = xs.map fun d => ⟨d, 1, 1, 1, 0, d⟩ := by
  obtain ⟨h1, h2, h3⟩ := winAxes_get hax
  unfold should1x1 at h
  simp only [Bool.and_eq_true, Bool.or_eq_true, decide_eq_true_eq, Bool.not_eq_true', decide_eq_false_iff_not] at h
  obtain ⟨⟨⟨⟨-, hd⟩, hs⟩, hap⟩, hp⟩ := h
  have hn : tw.length - 2 = xs.length := by omega
  rw [hn] at hd hs hp
  apply List.ext_getElem
  · simpa using h1
  · intro i hi hi'
    have hi2 : i < xs.length := by omega
    have h4 := h3 i hi
    rw [hasDefault_elim hs hi2, hasDefault_elim hd hi2, List.getD_eq_getElem _ _ hi2, hc] at h4
    have hk : ks.getD i 0 = 1 := by
      rw [List.getD_eq_getElem _ _ (by omega)]
      exact (List.eq_replicate_iff.1 hks).2 _ (List.getElem_mem _)
    rw [hk] at h4
    have hpos : 0 < xs[i] := hx0 _ (List.getElem_mem _)
    have key : ∀ pb pe, ((a.autoPad = "NOTSET" → pb = 0 ∧ pe = 0)) → winAxis a.autoPad false xs[i] 1 1 1 pb pe =
        some ⟨xs[i], 1, 1, 1, 0, xs[i]⟩ := by
      intro pb pe hpp
      unfold winAxis
      have hne : ¬ (a.autoPad = "SAME_UPPER" ∨ a.autoPad = "SAME_LOWER") := by
        rcases hap with e | e <;> rw [e] <;> decide
      rw [if_neg (by decide : ¬ (1 : ℕ) = 0), if_neg hne]
      have e1 : (if a.autoPad = "VALID" then 0 else pb) = 0 := by
        rcases hap with e | e
        · rw [if_neg (by rw [e]; decide), (hpp e).1]
        · rw [if_pos e]
      have e2 : (if a.autoPad = "VALID" then 0 else pe) = 0 := by
        rcases hap with e | e
        · rw [if_neg (by rw [e]; decide), (hpp e).2]
        · rw [if_pos e]
      rw [e1, e2]
      simp only
      rw [if_neg (by omega)]
      simp
      omega
    rw [key] at h4
    · rw [← Option.some.inj h4]
      simp
    · intro e
      have hp : hasDefault a.pads (2 * xs.length) 0 = true := by
        rcases hp with hp | hp
        · exact absurd e hp
        · exact hp
      exact ⟨hasDefault_elim hp (by omega), hasDefault_elim hp (by omega)⟩

theorem winPos_one : ∀ {xs o : List ℕ}, InBounds xs o →
    winPos (xs.map fun d => ⟨d, 1, 1, 1, 0, d⟩) o (List.replicate xs.length 0) = some o
  | [], o, h => by simp at h; subst h; rfl
  | d :: xs, o, h => by
    cases o with
    | nil => simp at h
    | cons a o =>
      rw [inBounds_cons] at h
      rw [List.map_cons, List.length_cons, List.replicate_succ]
      unfold winPos
      simp only
      rw [if_pos (by omega), winPos_one h.2, Option.map_some]
      simp

theorem unrank_ones {C p n : ℕ} (hp : p < C) : unrank (C :: List.replicate n 1) p = p :: List.replicate n 0 := by
  have hin : InBounds (C :: List.replicate n 1) (p :: List.replicate n 0) := by
    rw [inBounds_cons]
    refine ⟨hp, ?_⟩
    induction n with
    | zero => exact inBounds_nil
    | succ n ih => rw [List.replicate_succ, List.replicate_succ, inBounds_cons]; exact ⟨by omega, ih⟩
  have e : rowMajor (C :: List.replicate n 1) (p :: List.replicate n 0) = p := by
    rw [inBounds_cons] at hin
    rw [rowMajor, rowMajor_ones _ _ hin.2]
    simp
  conv_lhs => rw [← e]
  exact unrank_rowMajor hin

/-- The pattern for kernels of one element computes Conv. -/
theorem conv1x1_spec {a : WinAttrs} {t tw : List (Option ℕ)} {x w y : Tensor V} {b : Option (Tensor V)}
    (hcomm : ∀ u v, A.bin .mul u v = A.bin .mul v u) (h : conv A a x w b = some y)
    (hsh : should1x1 a tw = true) (ht : FitsDims t x.shape) (htw : FitsDims tw w.shape) (hr : 3 ≤ x.shape.length)
    (hc : a.ceil = false) (hx0 : ∀ d ∈ x.shape, 0 < d) (hw0 : ∀ d ∈ w.shape, 0 < d) :
    conv1x1 A t tw x w b = some y := by
  obtain ⟨N, C, xs, M, cg, ks, ax, hx, hw, hax, ⟨-, hC, -, hker⟩, hb, rfl⟩ := conv_some.1 h
  have hg1 : a.group = 1 := by
    unfold should1x1 at hsh
    simp only [Bool.and_eq_true, decide_eq_true_eq] at hsh
    exact hsh.1.1.1.1.1
  rw [hg1, mul_one] at hC
  subst hC
  obtain ⟨hal, hkl, -⟩ := winAxes_get hax
  have htwl : tw.length = ks.length + 2 := by rw [htw.length_eq, hw]; rfl
  have hks : ks = List.replicate ks.length 1 := by
    rw [List.eq_replicate_iff]
    refine ⟨rfl, ?_⟩
    have h1 : (tw.drop 2).all (fun d => decide (d = some 1)) = true := by
      unfold should1x1 at hsh
      simp only [Bool.and_eq_true] at hsh
      exact hsh.1.1.1.1.2
    have h2 : FitsDims (tw.drop 2) ks := by
      have := fits_drop 2 htw
      rwa [hw] at this
    intro d hd
    obtain ⟨i, hi, rfl⟩ := List.getElem_of_mem hd
    have h3 := List.forall₂_iff_get.1 h2
    have h4 := h3.2 i (by rw [h3.1]; exact hi) hi
    rw [List.all_eq_true] at h1
    have h5 := h1 (tw.drop 2)[i] (List.getElem_mem (by rw [h3.1]; exact hi))
    simp only [decide_eq_true_eq] at h5
    simp only [List.get_eq_getElem] at h4
    rw [h5] at h4
    simp at h4
    exact h4.symm
  have hxs0 : ∀ d ∈ xs, 0 < d := fun d hd => hx0 d (by rw [hx]; simp [hd])
  have hax' := should_axes hsh htwl hks hc hxs0 hax
  have houts : ax.map WinAx.out = xs := by rw [hax', List.map_map]; exact List.map_id _
  have hN := hx0 N (by rw [hx]; simp)
  have hC := hx0 C (by rw [hx]; simp)
  have hM := hw0 M (by rw [hw]; simp)
  have hkp : ks.prod = 1 := by rw [hks]; simp
  have hQ := prod_pos hxs0
  -- the input
  have hflat : ∃ c, flatX t x = some c ∧ Stack c N C xs.prod fun n k q => x.get (n :: k :: unrank xs q) := by
    obtain ⟨t', c, h1, h2, h3, h4⟩ := ndim_low (n := 2) ht hx0 hr
    rw [hx] at h2
    simp only [List.take_succ_cons, List.take_zero, List.drop_succ_cons, List.drop_zero, List.cons_append,
      List.nil_append] at h2
    have hs := retag_shape h2
    have hg : ∀ n k q, n < N → k < C → q < xs.prod → c.get [n, k, q] = x.get (n :: k :: unrank xs q) := by
      intro n k q hn hk hq
      refine retag_get h2 ?_
      rw [hx]
      simp only [rowMajor, List.prod_cons, List.prod_nil, mul_one]
      rw [rowMajor_unrank hq]
      simp
    unfold flatX
    rw [h1, Option.bind_some]
    by_cases hu : t.head? = some (some 1)
    · rw [if_pos hu]
      have hN1 : N = 1 := by
        rw [hx] at ht
        cases ht with
        | cons h1 _ =>
          simp at hu
          subst hu
          simp at h1
          exact h1.symm
      exact stack_squeeze hs hg hN1 hC hQ h3
    · rw [if_neg hu]
      exact ⟨c, rfl, .inl ⟨hs, hg⟩⟩
  obtain ⟨c, hc1, hc2⟩ := hflat
  -- the weights
  obtain ⟨tw', w2, hw1, hw2, -, -⟩ := ndim_low (n := 1) htw hw0 (by rw [hw]; simp)
  rw [hw] at hw2
  simp only [List.take_succ_cons, List.take_zero, List.drop_succ_cons, List.drop_zero, List.cons_append,
    List.nil_append, List.prod_cons, hkp, mul_one] at hw2
  have hw2s : w2.shape = [M, C] := retag_shape hw2
  obtain ⟨y1, hy1, hy2⟩ := matmul_stack (A := A) hw2s hc2
  obtain ⟨y2, hy3, hy4⟩ := addBias_stack (A := A) hy2 hb
  have hfin := reshape_stack hy4 hN hM hxs0
  unfold conv1x1
  rw [hc1, Option.bind_some, hw1, Option.bind_some]
  simp only
  rw [hy1, Option.bind_some, hy3, Option.bind_some, hx, hw]
  simp only [List.getD_cons_zero, List.drop_succ_cons, List.drop_zero]
  rw [hfin, houts]
  congr 1
  refine build_congr fun i hi => ?_
  match i with
  | [] => simp at hi
  | [_] => simp at hi
  | n :: m :: os =>
    rw [inBounds_cons, inBounds_cons] at hi
    simp only [List.getD_cons_zero, List.getD_cons_succ, List.drop_succ_cons, List.drop_zero]
    congr 1
    rw [hg1, conv_group1 (by simpa using hi.2.1) hcomm, List.prod_cons, hkp, mul_one]
    refine sumOver_congr fun p hp => ?_
    have hp := List.mem_range.1 hp
    simp only [List.getD_cons_zero, List.getD_cons_succ, List.drop_succ_cons, List.drop_zero]
    rw [unrank_rowMajor hi.2.2]
    have hu : unrank (C :: ks) p = p :: List.replicate ks.length 0 := by
      rw [hks]
      simpa using unrank_ones (n := ks.length) hp
    rw [hu]
    congr 1
    · refine retag_get hw2 ?_
      rw [hw]
      have hz : rowMajor ks (List.replicate ks.length 0) = 0 := by
        have := rowMajor_ones ks.length (List.replicate ks.length 0) (by
          clear * -
          induction ks.length with
          | zero => exact inBounds_nil
          | succ n ih => rw [List.replicate_succ, List.replicate_succ, inBounds_cons]; exact ⟨by omega, ih⟩)
        rw [← hks] at this
        exact this
      simp only [rowMajor, List.prod_cons, List.prod_nil, hkp, hz]
    · unfold under
      simp only [List.getD_cons_zero, List.drop_succ_cons, List.drop_zero]
      rw [hax', hkl, winPos_one hi.2.2]

end Verif.ConvMatMul
