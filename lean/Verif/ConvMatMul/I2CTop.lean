import Verif.ConvMatMul.I2CLemmas

/-! # Im2Col -/

namespace Verif.ConvMatMul

open Verif.Rewrite
open Verif.ConvTranspose (storeAt InZ inZ_cast inZ_toNat cast_toNat cast_inj)

variable {V : Type} [Inhabited V] {A : Alg V}

theorem forall₂_range {α β : Type} {R : α → β → Prop} {f : ℕ → α} : ∀ {n : ℕ} {l : List β}, l.length = n →
    (∀ i, (h : i < l.length) → R (f i) l[i]) → List.Forall₂ R ((List.range n).map f) l := by
  intro n l hl h
  rw [List.forall₂_iff_get]
  refine ⟨by simp [hl], fun i h1 h2 => ?_⟩
  simpa using h i h2

/-- What the axes of Im2Col and of Conv have in common. -/
structure AxesRel (a : WinAttrs) (xs ks : List ℕ) (ax : List WinAx) : Prop where
  rel : List.Forall₂ IRel (i2cAxes a xs ks) ax
  inp : xs = (i2cAxes a xs ks).map IAxis.inp
  k : ks = (i2cAxes a xs ks).map IAxis.k
  pos : ∀ w ∈ ax, 0 < w.out

theorem elim_getD {l : Option (List ℕ)} {n i d : ℕ} (hi : i < n) :
    (l.getD (List.replicate n d)).getD i 0 = l.elim d (·.getD i 0) := by
  cases l with
  | none => simp [List.getD_eq_getElem?_getD, hi]
  | some l => rfl

theorem winAxes_get {a : WinAttrs} {xs ks : List ℕ} {ax : List WinAx} (h : winAxes a xs ks = some ax) :
    ax.length = xs.length ∧ ks.length = xs.length ∧ ∀ i, (hi : i < ax.length) →
      winAxis a.autoPad a.ceil (xs.getD i 0) (ks.getD i 0) (a.strides.elim 1 (·.getD i 0))
        (a.dilations.elim 1 (·.getD i 0)) (a.pads.elim 0 (·.getD i 0)) (a.pads.elim 0 (·.getD (xs.length + i) 0)) =
          some ax[i] := by
  obtain ⟨hl, hk⟩ := winAxes_length h
  refine ⟨hl, hk, ?_⟩
  intro i hi
  unfold winAxes at h
  simp only at h
  split at h
  · have h2 := mapM_forall₂.1 h
    rw [List.forall₂_iff_get] at h2
    have := h2.2 i (by simp; omega) hi
    simp only [List.get_eq_getElem, List.getElem_range] at this
    rwa [elim_getD (by omega), elim_getD (by omega), elim_getD (by omega), elim_getD (by omega)] at this
  · cases h

theorem axes_irel {a : WinAttrs} {xs ks : List ℕ} {ax : List WinAx} (h : winAxes a xs ks = some ax)
    (hc : a.ceil = false) (hap : a.autoPad ∈ ["NOTSET", "VALID", "SAME_UPPER", "SAME_LOWER"])
    (hx : ∀ d ∈ xs, 0 < d) (hk : ∀ d ∈ ks, 0 < d) : AxesRel a xs ks ax := by
  obtain ⟨h1, h2, h3⟩ := winAxes_get h
  have key : ∀ i, (hi : i < ax.length) → _ := fun i hi => winAxis_rel hap
    (by rw [List.getD_eq_getElem _ _ (by omega)]; exact hx _ (List.getElem_mem (by omega)))
    (by rw [List.getD_eq_getElem _ _ (by omega)]; exact hk _ (List.getElem_mem (by omega))) (hc ▸ h3 i hi)
  refine ⟨forall₂_range h1 fun i hi => (key i hi).1, ?_, ?_, ?_⟩
  · apply List.ext_getElem
    · simp [i2cAxes]
    · intro i g1 g2
      simp [i2cAxes, i2cAxis, List.getElem?_eq_getElem g1]
  · apply List.ext_getElem
    · simp [i2cAxes, h2]
    · intro i g1 g2
      simp [i2cAxes, i2cAxis, List.getElem?_eq_getElem g1]
  · intro w hw
    obtain ⟨i, hi, rfl⟩ := List.getElem_of_mem hw
    exact (key i hi).2.2.2.1

/-! ### The simple algorithm -/

theorem outs_eq {ia : List IAxis} {ax : List WinAx} (h : List.Forall₂ IRel ia ax) :
    (ia.map fun a => a.out.toNat) = ax.map WinAx.out := by
  induction h with
  | nil => rfl
  | cons h _ ih => rw [List.map_cons, List.map_cons, ih, h.out]; rfl

theorem split_loop {r : ℕ} {N C : ℕ} {outs ks i : List ℕ} (hr : outs.length = r)
    (h : InBounds (N :: outs ++ C :: ks) i) :
    i = loopN r i :: loopO r i ++ loopC r i :: loopK r i ∧ loopN r i < N ∧ InBounds outs (loopO r i) ∧
      loopC r i < C ∧ InBounds ks (loopK r i) := by
  cases i with
  | nil => simp at h
  | cons n i =>
    rw [List.cons_append, inBounds_cons] at h
    obtain ⟨hn, h⟩ := h
    have hl := h.length
    rw [List.length_append, List.length_cons] at hl
    have e : i = i.take r ++ i.drop r := (List.take_append_drop _ _).symm
    rw [e, inBounds_append (by rw [List.length_take]; omega)] at h
    obtain ⟨h1, h2⟩ := h
    cases hd : i.drop r with
    | nil => rw [hd] at h2; simp at h2
    | cons c k =>
      rw [hd, inBounds_cons] at h2
      have e1 : loopO r (n :: i) = i.take r := rfl
      have e2 : loopC r (n :: i) = c := by
        unfold loopC
        rw [show 1 + r = r + 1 by omega, List.getD_cons_succ]
        have := congrArg (fun l => l.getD 0 0) hd
        simpa [List.getD_eq_getElem?_getD] using this
      have e3 : loopK r (n :: i) = k := by
        unfold loopK
        rw [show 2 + r = r + 1 + 1 by omega, List.drop_succ_cons, ← List.drop_drop, hd]
        rfl
      rw [e1, e2, e3]
      refine ⟨?_, hn, h1, h2.1, h2.2⟩
      unfold loopN
      rw [List.getD_cons_zero, List.cons_append, ← hd, List.take_append_drop]

theorem join_loop {n c : ℕ} {o k : List ℕ} : loopN o.length (n :: o ++ c :: k) = n ∧
    loopO o.length (n :: o ++ c :: k) = o ∧ loopC o.length (n :: o ++ c :: k) = c ∧
    loopK o.length (n :: o ++ c :: k) = k := by
  refine ⟨rfl, ?_, ?_, ?_⟩
  · unfold loopO; simp
  · unfold loopC
    rw [show 1 + o.length = o.length + 1 by omega, List.cons_append, List.getD_cons_succ]
    simp
  · unfold loopK
    rw [show 2 + o.length = o.length + 1 + 1 by omega, List.cons_append, List.drop_succ_cons, ← List.drop_drop]
    simp

/-- The element of the matrix in terms of channels and positions. -/
theorem def_get {x : Tensor V} {ax : List WinAx} {ks : List ℕ} {N C : ℕ} {xs : List ℕ} (hx : x.shape = N :: C :: xs) :
    im2colDef A ax ks x = build [N, (C :: ks).prod, (ax.map WinAx.out).prod] fun i =>
      under A ax x (i.getD 0 0) ((unrank (C :: ks) (i.getD 1 0)).getD 0 0)
        (unrank (ax.map WinAx.out) (i.getD 2 0)) ((unrank (C :: ks) (i.getD 1 0)).drop 1) := by
  unfold im2colDef
  rw [hx]
  rfl

theorem three {a b c : ℕ} {q : List ℕ} (h : InBounds [a, b, c] q) : ∃ i j k, q = [i, j, k] ∧ i < a ∧ j < b ∧ k < c := by
  match q, h.length with
  | [i, j, k], _ =>
    rw [inBounds_cons, inBounds_cons, inBounds_cons] at h
    exact ⟨i, j, k, rfl, h.1, h.2.1, h.2.2.1⟩

theorem unrank_cons_ne {C n : ℕ} {ks : List ℕ} (h : n < (C :: ks).prod) : ∃ c k, unrank (C :: ks) n = c :: k ∧ c < C ∧
    InBounds ks k := by
  have := unrank_inBounds h
  cases hu : unrank (C :: ks) n with
  | nil => rw [hu] at this; simp at this
  | cons c k => rw [hu, inBounds_cons] at this; exact ⟨c, k, rfl, this.1, this.2⟩

theorem simpleLoop_spec {x : Tensor V} {a : WinAttrs} {ax : List WinAx} {ks xs : List ℕ} {N C : ℕ} {data : List V}
    (hx : x.shape = N :: C :: xs) (hr : AxesRel a xs ks ax) (h0 : ∀ d ∈ xs, 0 < d)
    (hd : data.length = [N, (C :: ks).prod, (ax.map WinAx.out).prod].prod) :
    ((simpleLoop A x (i2cAxes a xs ks) ks [N, (C :: ks).prod, (ax.map WinAx.out).prod] data).map fun data =>
      build [N, (C :: ks).prod, (ax.map WinAx.out).prod] fun q =>
        data.getD (rowMajor [N, (C :: ks).prod, (ax.map WinAx.out).prod] q) default) =
      some (im2colDef A ax ks x) := by
  rw [def_get hx]
  have hl := hr.rel.length_eq
  have hkl : ks.length = ax.length := by rw [hr.k, List.length_map, hl]
  unfold simpleLoop
  rw [outs_eq hr.rel, hx]
  refine storeAll_build hd ?_ ?_
  · intro i hi
    obtain ⟨-, h1, h2, h3, h4⟩ := split_loop (r := (i2cAxes a xs ks).length) (by simp [hl]) (mem_allIndices.1 hi)
    simp only [List.getD_cons_zero, List.getD_cons_succ] at h1 h3
    have hb1 := rowMajor_lt (inBounds_cons.2 ⟨h3, h4⟩)
    have hb2 := rowMajor_lt h2
    refine ⟨[loopN (i2cAxes a xs ks).length i,
      rowMajor (C :: ks) (loopC (i2cAxes a xs ks).length i :: loopK (i2cAxes a xs ks).length i),
      rowMajor (ax.map WinAx.out) (loopO (i2cAxes a xs ks).length i)], ?_, ?_, ?_⟩
    · simp only [inBounds_cons, inBounds_nil, and_true]
      exact ⟨h1, hb1, hb2⟩
    · rw [rowIdx_eq h4.length]
      unfold colIdx
      rw [colIdx_eq hr.rel (by rw [h2.length, List.length_map])]
      simp only [List.map_cons, List.map_nil]
      rw [rowMajor_head (e := C)]
    · rw [simpleVal_eq hr.rel hx hr.inp h0 (by rw [h2.length, List.length_map]) (by rw [h4.length, hkl]) h1 h3]
      simp only [List.getD_cons_zero, List.getD_cons_succ]
      rw [unrank_rowMajor (inBounds_cons.2 ⟨h3, h4⟩), unrank_rowMajor h2]
      rfl
  · intro q hq
    obtain ⟨n, p, c, rfl, hn, hp, hc⟩ := three hq
    obtain ⟨ci, k, hu, hci, hk⟩ := unrank_cons_ne hp
    have ho := unrank_inBounds hc
    have hol : (i2cAxes a xs ks).length = (unrank (ax.map WinAx.out) c).length := by
      rw [ho.length, List.length_map, hl]
    refine ⟨n :: unrank (ax.map WinAx.out) c ++ ci :: k, ?_, ?_⟩
    · rw [mem_allIndices, List.cons_append, List.cons_append, inBounds_cons, inBounds_append ho.length, inBounds_cons]
      exact ⟨hn, ho, hci, hk⟩
    · rw [hol]
      obtain ⟨j1, j2, j3, j4⟩ := join_loop (n := n) (c := ci) (o := unrank (ax.map WinAx.out) c) (k := k)
      rw [j1, j2, j3, j4, rowIdx_eq hk.length]
      unfold colIdx
      rw [colIdx_eq hr.rel (by rw [ho.length, List.length_map]), rowMajor_unrank hc, rowMajor_head (e := C), ← hu,
        rowMajor_unrank hp]
      rfl

/-! ### The optimized algorithm -/

theorem optVal_eq {x : Tensor V} {a b : IAxis} {wa wb : WinAx} {n c N C l kh kw oh ow h w : ℕ}
    (ha : IRel a wa) (hb : IRel b wb) (hx : x.shape = [N, C, h, w]) (hh : a.inp = h) (hw : b.inp = w)
    (h1 : 0 < h) (h2 : 0 < w) (hn : n < N) (hc : c < C) (hkh : kh < a.k) (hkw : kw < b.k)
    (e1 : colN a.out.toNat b.out.toNat l = n) (e2 : colH a.out.toNat b.out.toNat l = oh)
    (e3 : colW a.out.toNat b.out.toNat l = ow) :
    optVal A x a b l c kh kw = some (under A [wa, wb] x n c [oh, ow] [kh, kw]) := by
  have hs := simpleVal_eq (A := A) (x := x) (ia := [a, b]) (ax := [wa, wb]) (n := n) (c := c) (N := N) (C := C)
    (o := [oh, ow]) (k := [kh, kw]) (xs := [h, w]) (by simp [ha, hb]) hx (by simp [hh, hw])
    (by intro d hd; simp at hd; omega) rfl rfl hn hc
  rw [← hs]
  unfold optVal
  simp only [e1, e2, e3]
  have hidx : inIdx [a, b] [oh, ow] [kh, kw] =
      [(oh : ℤ) * a.s - a.pb + (kh : ℤ) * a.d, (ow : ℤ) * b.s - b.pb + (kw : ℤ) * b.d] := by
    simp only [inIdx]
    congr 1
    · ring
    · congr 1
      ring
  have hins : ∀ i j : ℤ, inside [a, b] [i, j] ↔ (0 ≤ i ∧ i < a.inp) ∧ 0 ≤ j ∧ j < b.inp := by
    intro i j
    unfold inside
    simp
  unfold simpleVal
  simp only [hidx]
  by_cases hi : interior a b ((oh : ℤ) * a.s - a.pb) ((ow : ℤ) * b.s - b.pb)
  · rw [if_pos hi]
    unfold interior at hi
    have m1 : (kh : ℤ) * a.d ≤ ((a.k : ℤ) - 1) * a.d := mul_le_mul_of_nonneg_right (by omega) (by omega)
    have m2 : (kw : ℤ) * b.d ≤ ((b.k : ℤ) - 1) * b.d := mul_le_mul_of_nonneg_right (by omega) (by omega)
    have m3 : 0 ≤ (kh : ℤ) * a.d := by positivity
    have m4 : 0 ≤ (kw : ℤ) * b.d := by positivity
    have hin : inside [a, b] [(oh : ℤ) * a.s - a.pb + (kh : ℤ) * a.d, (ow : ℤ) * b.s - b.pb + (kw : ℤ) * b.d] := by
      rw [hins]
      refine ⟨⟨?_, ?_⟩, ?_, ?_⟩ <;> linarith [hi.1.1, hi.1.2, hi.2.1, hi.2.2]
    simp only [if_pos hin]
    unfold interiorVal
    simp
  · rw [if_neg hi]
    unfold borderVal
    simp only
    generalize (oh : ℤ) * a.s - a.pb + (kh : ℤ) * a.d = i
    generalize (ow : ℤ) * b.s - b.pb + (kw : ℤ) * b.d = j
    by_cases g1 : 0 ≤ i ∧ i < a.inp
    · by_cases g2 : 0 ≤ j ∧ j < b.inp
      · have hin := (hins i j).2 ⟨g1, g2⟩
        simp only [if_pos hin, if_pos g1, if_pos (show _ ∧ _ from ⟨g1, g2⟩)]
        rfl
      · have hin : ¬ inside [a, b] [i, j] := fun h => g2 ((hins i j).1 h).2
        have g3 : ¬ ((0 ≤ i ∧ i < a.inp) ∧ 0 ≤ j ∧ j < b.inp) := fun h => g2 h.2
        simp only [if_neg hin, if_pos g1, if_neg g3]
        have l1 : loadAt x [(n : ℤ), (c : ℤ), i, 0] = some (x.get [n, c, i.toNat, 0]) := by
          have := loadAt_nat (x := x) (i := [n, c, i.toNat, 0])
            (by rw [hx]; simp only [inBounds_cons, inBounds_nil, and_true]; omega)
          simp only [List.map_cons, List.map_nil, Int.toNat_of_nonneg g1.1, Nat.cast_zero] at this
          exact this
        have l2 : loadAt x [(n : ℤ), (c : ℤ), 0, 0] = some (x.get [n, c, 0, 0]) := by
          have := loadAt_nat (x := x) (i := [n, c, 0, 0])
            (by rw [hx]; simp only [inBounds_cons, inBounds_nil, and_true]; omega)
          simp only [List.map_cons, List.map_nil, Nat.cast_zero] at this
          exact this
        simp only [List.map_cons, List.map_nil]
        rw [l1, l2]
        rfl
    · have hin : ¬ inside [a, b] [i, j] := fun h => g1 ((hins i j).1 h).1
      have g3 : ¬ ((0 ≤ i ∧ i < a.inp) ∧ 0 ≤ j ∧ j < b.inp) := fun h => g1 h.1
      simp only [if_neg hin, if_neg g1, if_neg g3]
      rfl

theorem optLoop_spec {x : Tensor V} {a b : IAxis} {wa wb : WinAx} {N C h w : ℕ} {data : List V}
    (hx : x.shape = [N, C, h, w]) (ha : IRel a wa) (hb : IRel b wb) (hh : a.inp = h) (hw : b.inp = w)
    (h1 : 0 < h) (h2 : 0 < w)
    (hd : data.length = [N, [C, a.k, b.k].prod, [wa.out, wb.out].prod].prod) :
    ((optLoop A x a b [N, [C, a.k, b.k].prod, [wa.out, wb.out].prod] data).map fun data =>
      build [N, [C, a.k, b.k].prod, [wa.out, wb.out].prod] fun q =>
        data.getD (rowMajor [N, [C, a.k, b.k].prod, [wa.out, wb.out].prod] q) default) =
      some (im2colDef A [wa, wb] [a.k, b.k] x) := by
  rw [def_get hx]
  have oa : a.out.toNat = wa.out := by rw [ha.out]; rfl
  have ob : b.out.toNat = wb.out := by rw [hb.out]; rfl
  have hcol : ∀ l, l < N * (wa.out * wb.out) → colN wa.out wb.out l < N ∧
      colQ wa.out wb.out l < wa.out * wb.out ∧
      unrank [wa.out, wb.out] (colQ wa.out wb.out l) = [colH wa.out wb.out l, colW wa.out wb.out l] := by
    intro l hl
    have hp : 0 < wa.out * wb.out := Nat.pos_of_ne_zero fun e => by rw [e] at hl; simp at hl
    have hq : colQ wa.out wb.out l = l % (wa.out * wb.out) := by
      unfold colQ
      have := Nat.div_add_mod' l (wa.out * wb.out)
      omega
    have hq' : colQ wa.out wb.out l < wa.out * wb.out := by rw [hq]; exact Nat.mod_lt _ hp
    refine ⟨?_, hq', ?_⟩
    · unfold colN
      exact Nat.div_lt_of_lt_mul (by rwa [mul_comm])
    · have hw0 : 0 < wb.out := Nat.pos_of_mul_pos_left hp
      have he : rowMajor [wa.out, wb.out] [colH wa.out wb.out l, colW wa.out wb.out l] = colQ wa.out wb.out l := by
        simp only [rowMajor]
        unfold colW
        have := Nat.div_mul_le_self (colQ wa.out wb.out l) wb.out
        have e : colH wa.out wb.out l = colQ wa.out wb.out l / wb.out := rfl
        rw [← e] at this
        simp only [List.prod_cons, List.prod_nil, mul_one]
        omega
      have hin : InBounds [wa.out, wb.out] [colH wa.out wb.out l, colW wa.out wb.out l] := by
        simp only [inBounds_cons, inBounds_nil, and_true]
        refine ⟨Nat.div_lt_of_lt_mul (by rwa [mul_comm]), ?_⟩
        unfold colW
        have := Nat.div_add_mod' (colQ wa.out wb.out l) wb.out
        have e : colH wa.out wb.out l = colQ wa.out wb.out l / wb.out := rfl
        rw [← e] at this
        have := Nat.mod_lt (colQ wa.out wb.out l) hw0
        omega
      conv_lhs => rw [← he]
      exact unrank_rowMajor hin
  have h4 : ∀ i, InBounds [N * (wa.out * wb.out), C, a.k, b.k] i → ∃ l c kh kw, i = [l, c, kh, kw] ∧
      l < N * (wa.out * wb.out) ∧ c < C ∧ kh < a.k ∧ kw < b.k := by
    intro i hi
    match i, hi.length with
    | [l, c, kh, kw], _ =>
      simp only [inBounds_cons, inBounds_nil, and_true] at hi
      exact ⟨l, c, kh, kw, rfl, hi⟩
  have hrow : ∀ c kh kw : ℕ, ((c : ℤ) * ((a.k * b.k : ℕ) : ℤ) + (kh : ℤ) * b.k + kw) =
      (rowMajor [C, a.k, b.k] [c, kh, kw] : ℤ) := by
    intro c kh kw
    simp only [rowMajor, List.prod_cons, List.prod_nil, mul_one, add_zero]
    push_cast
    ring
  unfold optLoop
  rw [hx, oa, ob]
  simp only [List.getD_cons_zero, List.getD_cons_succ]
  refine storeAll_build hd ?_ ?_
  · intro i hi
    obtain ⟨l, c, kh, kw, rfl, hl, hc, hkh, hkw⟩ := h4 i (mem_allIndices.1 hi)
    obtain ⟨c1, c2, c3⟩ := hcol l hl
    have hin : InBounds [C, a.k, b.k] [c, kh, kw] := by
      simp only [inBounds_cons, inBounds_nil, and_true]
      exact ⟨hc, hkh, hkw⟩
    have hb1 := rowMajor_lt hin
    refine ⟨[colN wa.out wb.out l, rowMajor [C, a.k, b.k] [c, kh, kw], colQ wa.out wb.out l], ?_, ?_, ?_⟩
    · simp only [inBounds_cons, inBounds_nil, and_true]
      exact ⟨c1, hb1, by simpa using c2⟩
    · simp only [List.getD_cons_zero, List.getD_cons_succ, List.map_cons, List.map_nil]
      rw [hrow]
    · simp only [List.getD_cons_zero, List.getD_cons_succ]
      rw [unrank_rowMajor hin, optVal_eq ha hb hx hh hw h1 h2 c1 hc hkh hkw (by rw [oa, ob]) (by rw [oa, ob])
        (by rw [oa, ob])]
      simp only [List.map_cons, List.map_nil]
      rw [c3]
      rfl
  · intro q hq
    obtain ⟨n, p, c, rfl, hn, hp, hc⟩ := three hq
    obtain ⟨ci, k, hu, hci, hk⟩ := unrank_cons_ne hp
    have hc' : c < wa.out * wb.out := by simpa using hc
    match k, hk.length with
    | [kh, kw], _ =>
      simp only [inBounds_cons, inBounds_nil, and_true] at hk
      have hl : n * (wa.out * wb.out) + c < N * (wa.out * wb.out) := by
        calc n * (wa.out * wb.out) + c < n * (wa.out * wb.out) + wa.out * wb.out := by omega
          _ = (n + 1) * (wa.out * wb.out) := by ring
          _ ≤ N * (wa.out * wb.out) := Nat.mul_le_mul_right _ hn
      have e1 : colN wa.out wb.out (n * (wa.out * wb.out) + c) = n := by
        unfold colN
        rw [mul_comm n, Nat.mul_add_div (by omega), Nat.div_eq_of_lt hc', add_zero]
      have e2 : colQ wa.out wb.out (n * (wa.out * wb.out) + c) = c := by
        have e1' := e1
        unfold colN at e1'
        unfold colQ
        rw [e1']
        omega
      refine ⟨[n * (wa.out * wb.out) + c, ci, kh, kw], ?_, ?_⟩
      · rw [mem_allIndices]
        simp only [inBounds_cons, inBounds_nil, and_true]
        exact ⟨hl, hci, hk.1, hk.2⟩
      · simp only [List.getD_cons_zero, List.getD_cons_succ, List.map_cons, List.map_nil]
        rw [e1, e2, hrow, ← hu, rowMajor_unrank hp]

/-! ### Im2Col -/

theorem foldl_k : ∀ (ia : List IAxis) (c : ℤ),
    ia.foldl (fun (r : ℤ) (a : IAxis) => r * a.k) c = c * ((ia.map IAxis.k).prod : ℕ)
  | [], c => by simp
  | a :: ia, c => by
    rw [List.foldl_cons, foldl_k ia, List.map_cons, List.prod_cons]
    push_cast
    ring

theorem foldl_out {ia : List IAxis} {ax : List WinAx} (h : List.Forall₂ IRel ia ax) : ∀ c : ℤ,
    ia.foldl (fun r a => r * a.out) c = c * ((ax.map WinAx.out).prod : ℕ) := by
  induction h with
  | nil => intro c; simp
  | @cons a w ia ax hr _ ih =>
    intro c
    rw [List.foldl_cons, ih, List.map_cons, List.prod_cons, hr.out]
    push_cast
    ring

theorem im2col_spec {opt : Bool} {junk : V} {a : WinAttrs} {x : Tensor V} {ks xs : List ℕ} {ax : List WinAx} {N C : ℕ}
    (hx : x.shape = N :: C :: xs) (hr : AxesRel a xs ks ax) (h0 : ∀ d ∈ xs, 0 < d) :
    im2col A opt junk a x ks = some (im2colDef A ax ks x) := by
  have hdims : (i2cDims N C (i2cAxes a xs ks)).map Int.toNat = [N, (C :: ks).prod, (ax.map WinAx.out).prod] := by
    unfold i2cDims
    rw [foldl_k, foldl_out hr.rel, ← hr.k, one_mul, ← Nat.cast_mul]
    simp only [List.map_cons, List.map_nil, Int.toNat_natCast, List.prod_cons]
  unfold im2col
  rw [hx]
  simp only [List.drop_succ_cons, List.drop_zero, List.getD_cons_zero, List.getD_cons_succ]
  rw [if_pos]
  swap
  · intro e he
    obtain ⟨i, hi, rfl⟩ := List.getElem_of_mem he
    have h1 := List.forall₂_iff_get.1 hr.rel
    have := (h1.2 i hi (by rw [← hr.rel.length_eq]; exact hi)).out
    simp only [List.get_eq_getElem] at this
    rw [this]
    omega
  rw [hdims]
  unfold i2cLoop
  split
  · rename_i p q hia
    have hrel := hr.rel
    have hin := hr.inp
    have hk := hr.k
    rw [hia] at hrel hin hk
    cases hrel with
    | cons r1 t =>
      cases t with
      | cons r2 t =>
        cases t
        simp only [List.map_cons, List.map_nil] at hin hk
        subst hk
        exact optLoop_spec (hx.trans (by rw [hin])) r1 r2 rfl rfl (h0 _ (by simp [hin])) (h0 _ (by simp [hin]))
          (by simp)
  · exact simpleLoop_spec hx hr h0 (by simp)

end Verif.ConvMatMul
