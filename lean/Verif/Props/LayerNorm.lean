import Verif.Lower.LayerNormLemmas
import Verif.Lower.SoftmaxLemmas

/-!
C78: LayerNormalization and RMSLayerNormalization.
-/

namespace Verif.Props

open Verif.Lower
open Verif.Krnl (Buf)

theorem exists_lin {dims : List ℤ} (h : ∀ d ∈ dims, 0 ≤ d) {p : ℤ} (h0 : 0 ≤ p) (h1 : p < numel dims) :
    ∃ i, InShape i dims ∧ lin dims i = p := by
  have : p ∈ (idxs dims).map (lin dims) := by
    rw [idxs_lin h]
    exact mem_upto.2 ⟨h0, h1⟩
  obtain ⟨i, hi, e⟩ := List.mem_map.1 this
  exact ⟨i, mem_idxs.1 hi, e⟩

theorem bcastIdx_inShape {od : List ODim} {dims : List ℤ} (hl : od.length = dims.length)
    (hb : ∀ p ∈ od.zip dims, p.1.d = 1 ∨ p.1.d = p.2) {i : Idx} (hi : InShape i dims) :
    InShape (bcastIdx (od.map ODim.d) i) (od.map ODim.d) := by
  induction hi generalizing od with
  | nil =>
    have : od = [] := List.length_eq_zero_iff.1 hl
    subst this
    exact inShape_nil
  | @cons x d xs ds hx _ ih =>
    cases od with
    | nil => simp at hl
    | cons a od =>
      have h := hb (a, d) (by simp)
      refine inShape_cons.2 ⟨?_, ih (by simpa using hl) fun p hp => hb p (by simp [hp])⟩
      simp only at h ⊢
      split <;> omega

/-- The elements of a block, along the row. -/
theorem blockOf_perm {outer inner : List ℤ} {oi ii : Idx} (ho : InShape oi outer) :
    (blockOf (outer ++ inner) outer.length (oi ++ ii)).Perm ((idxs inner).map fun k => oi ++ k) := by
  refine (List.perm_ext_iff_of_nodup ((nodup_idxs _).filter _) ((nodup_idxs _).map fun a b h => List.append_cancel_left h)).2 ?_
  intro j
  rw [List.mem_filter, mem_idxs, decide_eq_true_eq, List.mem_map]
  have hl : (oi ++ ii).take outer.length = oi := by rw [← ho.length, List.take_left]
  rw [hl]
  constructor
  · rintro ⟨h1, h2⟩
    obtain ⟨a, b, rfl, ha, hb⟩ := inShape_split' h1
    rw [← ha.length, List.take_left] at h2
    subst h2
    exact ⟨b, mem_idxs.2 hb, rfl⟩
  · rintro ⟨k, hk, rfl⟩
    rw [mem_idxs] at hk
    exact ⟨(inShape_append ho.length).2 ⟨ho, hk⟩, by rw [← ho.length, List.take_left]⟩

theorem rowSum_block (X : Mem ℝ) {outer inner : List ℤ} (hX : X.shape = outer ++ inner) (hin : ∀ d ∈ inner, 0 < d) {oi ii : Idx}
    (ho : InShape oi outer) (f : ℝ → ℝ) :
    rowSum f X.flat (numel inner) (lin outer oi) = ((blockOf X.shape outer.length (oi ++ ii)).map fun j => f (X.data j)).sum := by
  rw [hX, ((blockOf_perm ho).map _).sum_eq, List.map_map]
  unfold rowSum
  have h1 : (idxs inner).map ((fun j => f (X.data j)) ∘ fun k => oi ++ k) =
      ((idxs inner).map (lin inner)).map fun p => f (rowAt X.flat (numel inner) (lin outer oi) p) := by
    rw [List.map_map]
    refine List.map_congr_left fun k hk => ?_
    have hk' := mem_idxs.1 hk
    have hs : InShape (oi ++ k) X.shape := by rw [hX]; exact (inShape_append ho.length).2 ⟨ho, hk'⟩
    simp only [Function.comp, rowAt, Mem.flat]
    rw [← lin_append _ _ _ _ ho.length, ← hX, unlin_lin hs]
  rw [h1, idxs_lin fun d hd => (hin d hd).le]
  unfold upto
  rw [List.map_map]
  generalize (numel inner).toNat = m
  induction m with
  | zero => simp
  | succ m ih => rw [List.range_succ, List.map_append, List.sum_append, ← ih, Finset.sum_range_succ]; simp

theorem blockOf_length {outer inner : List ℤ} (hin : ∀ d ∈ inner, 0 < d) {oi ii : Idx} (ho : InShape oi outer) :
    ((blockOf (outer ++ inner) outer.length (oi ++ ii)).length : ℝ) = (numel inner : ℤ) := by
  rw [(blockOf_perm ho).length_eq, List.length_map]
  rw [← length_idxs (ds := inner) fun d hd => (hin d hd).le]
  simp

theorem numel_pos' : ∀ {L : List ℤ}, (∀ x ∈ L, 0 < x) → 0 < numel L
  | [], _ => by simp [numel]
  | a :: L, h => by
    rw [numel_cons]
    exact mul_pos (h a (by simp)) (numel_pos' fun x hx => h x (by simp [hx]))

/-- Scale or bias `W` (its shape padded in front with ones to the rank of the input) as the program sees
it: `od` is what the compiler knows about its dimensions. -/
structure OperandOk (od : List ODim) (orank : ℕ) (dims : List ℤ) (axis : ℕ) (W : Mem ℝ) : Prop where
  shape : W.shape = od.map ODim.d
  ok : OdOk od orank dims
  supported : (bcastKind od orank axis).1 ≠ .unsupported

/-- The value that broadcasting pairs with element `i`. -/
def bcastVal (W : Mem ℝ) (i : Idx) : ℝ := W.data (bcastIdx W.shape i)

theorem operand_vals {od : List ODim} {orank : ℕ} {outer inner : List ℤ} {W : Mem ℝ} (h : OperandOk od orank (outer ++ inner) outer.length W)
    (hout : ∀ d ∈ outer, 0 ≤ d) (hin : ∀ d ∈ inner, 0 < d) {VL : ℕ} (hV : 0 < VL) :
    OpVals (lnOperand od orank outer.length W.flat) (numel outer) (numel inner) VL
      fun r p => bcastVal W (unlin outer r ++ unlin inner p) := by
  refine ⟨fun r j h0 h1 hj hjK => ?_⟩
  obtain ⟨oi, ho, rfl⟩ := exists_lin hout h0 h1
  obtain ⟨f, e, hf⟩ := bcastLoad_spec h.ok rfl h.supported (b := W.flat) (by rw [← h.shape]; rfl) ho hj hV hjK
  refine ⟨f, e, fun l hl => ?_⟩
  obtain ⟨ii, hii, el⟩ := exists_lin (fun d hd => (hin d hd).le) (p := j + l) (by omega) (by omega)
  rw [hf l hl ii hii el, unlin_lin ho, ← el, unlin_lin hii]
  unfold bcastVal Mem.flat
  have hin' : InShape (bcastIdx (od.map ODim.d) (oi ++ ii)) (od.map ODim.d) :=
    bcastIdx_inShape h.ok.length h.ok.bcast ((inShape_append ho.length).2 ⟨ho, hii⟩)
  simp only
  rw [h.shape, unlin_lin hin']

/-- The optional bias. -/
def BiasOk (outer inner : List ℤ) : Option (List ODim × ℕ × Mem ℝ) → Prop
  | none => True
  | some (od, orank, W) => OperandOk od orank (outer ++ inner) outer.length W

def biasOperand (axis : ℕ) (b : Option (List ODim × ℕ × Mem ℝ)) : Option LnOperand :=
  b.map fun b => lnOperand b.1 b.2.1 axis b.2.2.flat

def biasVal (b : Option (List ODim × ℕ × Mem ℝ)) (i : Idx) : ℝ :=
  match b with
  | none => 0
  | some b => bcastVal b.2.2 i

theorem bias_vals {outer inner : List ℤ} {b : Option (List ODim × ℕ × Mem ℝ)} (h : BiasOk outer inner b)
    (hout : ∀ d ∈ outer, 0 ≤ d) (hin : ∀ d ∈ inner, 0 < d) {VL : ℕ} (hV : 0 < VL) :
    ∀ r j, 0 ≤ r → r < numel outer → 0 ≤ j → j + VL ≤ numel inner → ∃ f, biasLoad (biasOperand outer.length b) VL r j = some f ∧
      ∀ l < VL, f l = biasVal b (unlin outer r ++ unlin inner (j + l)) := by
  intro r j h0 h1 hj hjK
  cases b with
  | none => exact ⟨_, rfl, fun _ _ => rfl⟩
  | some b =>
    obtain ⟨od, orank, W⟩ := b
    exact (operand_vals h hout hin hV).load r j h0 h1 hj hjK

/-- Everything about one run, in terms of the rows. -/
theorem layernorm_run (rms lit : Bool) (X : Mem ℝ) (outer inner : List ℤ) (hout : ∀ d ∈ outer, 0 ≤ d)
    (hin : ∀ d ∈ inner, 0 < d) (od : List ODim) (orank : ℕ) (scale : Mem ℝ) (hs : OperandOk od orank (outer ++ inner) outer.length scale)
    (bias : Option (List ODim × ℕ × Mem ℝ)) (hb : BiasOk outer inner bias) (eps : ℝ) (he : 0 < eps) (VL B : ℕ) (hV : 0 < VL) (hB : 0 < B)
    (hd : (VL : ℤ) ∣ numel inner) (o : LnOut) (ho : LnSized (numel outer) (numel inner) o) :
    ∃ o', lnSimd rms lit X.flat (lnOperand od orank outer.length scale.flat) (biasOperand outer.length bias) (numel outer) (numel inner)
        eps VL B o = some o' ∧
      LnDid rms X.flat (numel inner) eps (fun r p => bcastVal scale (unlin outer r ++ unlin inner p))
        (fun r p => biasVal bias (unlin outer r ++ unlin inner p)) (fun r => 0 ≤ r ∧ r < numel outer) o o' :=
  lnSimd_rows rms lit X.flat _ _ (operand_vals hs hout hin hV) (bias_vals hb hout hin hV) hB hV (numel_pos' hin) hd he o ho

theorem normVal_at (rms : Bool) (X : Mem ℝ) {outer inner : List ℤ} (hX : X.shape = outer ++ inner) (eps : ℝ) (S T : Idx → ℝ) {oi ii : Idx}
    (ho : InShape oi outer) (hi : InShape ii inner) :
    normVal rms X.flat (numel inner) eps (fun r p => S (unlin outer r ++ unlin inner p)) (fun r p => T (unlin outer r ++ unlin inner p))
      (lin X.shape (oi ++ ii)) = (X.data (oi ++ ii) - rowShift rms X.flat (numel inner) (lin outer oi)) *
        rowInv rms X.flat (numel inner) eps (lin outer oi) * S (oi ++ ii) + T (oi ++ ii) := by
  have hb := lin_bounds hi
  have hr := row_div (K := numel inner) (r := lin outer oi) hb.1 hb.2
  have hs : InShape (oi ++ ii) X.shape := by rw [hX]; exact (inShape_append ho.length).2 ⟨ho, hi⟩
  unfold normVal
  have e : X.flat.data (lin X.shape (oi ++ ii)) = X.data (oi ++ ii) := by simp only [Mem.flat]; rw [unlin_lin hs]
  rw [e, hX, lin_append _ _ _ _ ho.length, hr.1, hr.2]
  simp only
  rw [unlin_lin ho, unlin_lin hi]

/-- C78.  LayerNormalization (SIMD code), for inputs of all ranks and sizes, every axis (`outer` are the
dimensions before it, `inner` those from it on), all scales and biases the broadcast analysis accepts,
with or without bias and optional outputs, all vector lengths dividing the row length and all block
sizes, whether or not the number of rows is known at compile time or a multiple of the block size: every
element becomes (x - mean) / sqrt(variance + epsilon) * scale + bias, with mean and variance over the
elements from the axis on and scale and bias broadcast; the mean and the inverse standard deviation are
stored for every row.  No access is out of bounds and no division by zero happens. -/
theorem C78_layernorm (lit : Bool) (X : Mem ℝ) (outer inner : List ℤ) (hX : X.shape = outer ++ inner) (hout : ∀ d ∈ outer, 0 ≤ d)
    (hin : ∀ d ∈ inner, 0 < d) (od : List ODim) (orank : ℕ) (scale : Mem ℝ) (hs : OperandOk od orank (outer ++ inner) outer.length scale)
    (bias : Option (List ODim × ℕ × Mem ℝ)) (hb : BiasOk outer inner bias) (eps : ℝ) (he : 0 < eps) (VL B : ℕ) (hV : 0 < VL) (hB : 0 < B)
    (hd : (VL : ℤ) ∣ numel inner) (o : LnOut) (ho : LnSized (numel outer) (numel inner) o) :
    ∃ o', lnSimd false lit X.flat (lnOperand od orank outer.length scale.flat) (biasOperand outer.length bias) (numel outer) (numel inner)
        eps VL B o = some o' ∧ o'.Y.size = numel X.shape ∧ (o'.mean.isSome = o.mean.isSome ∧ o'.inv.isSome = o.inv.isSome) ∧
      ∀ i, InShape i X.shape →
        let m := meanOf (blockOf X.shape outer.length i) X.data
        let v := varianceOf (blockOf X.shape outer.length i) X.data
        o'.Y.data (lin X.shape i) = (X.data i - m) / Real.sqrt (v + eps) * bcastVal scale i + biasVal bias i ∧
        (∀ b, o'.mean = some b → b.data (lin outer (i.take outer.length)) = m) ∧
        ∀ b, o'.inv = some b → b.data (lin outer (i.take outer.length)) = 1 / Real.sqrt (v + eps) := by
  obtain ⟨o', e, w⟩ := layernorm_run false lit X outer inner hout hin od orank scale hs bias hb eps he VL B hV hB hd o ho
  refine ⟨o', e, by rw [w.Y.1, ho.Y, hX, numel_append], ⟨w.mean.isSome, w.inv.isSome⟩, ?_⟩
  intro i hi
  have hi' := hi
  rw [hX] at hi'
  obtain ⟨oi, ii, rfl, hoi, hii⟩ := inShape_split' hi'
  have hlb := lin_bounds hoi
  have hK := numel_pos' hin
  have hbl : ((blockOf X.shape outer.length (oi ++ ii)).length : ℝ) = (numel inner : ℤ) := by rw [hX]; exact blockOf_length hin hoi
  have hm : rowMean X.flat (numel inner) (lin outer oi) = meanOf (blockOf X.shape outer.length (oi ++ ii)) X.data := by
    unfold rowMean meanOf
    rw [rowSum_block X hX hin hoi (ii := ii) fun x => x, hbl]
  have hv : rowVar false X.flat (numel inner) (lin outer oi) = varianceOf (blockOf X.shape outer.length (oi ++ ii)) X.data := by
    rw [← varianceOf_eq]
    · unfold rowVar rowMean
      simp only [Bool.false_eq_true, if_false]
      rw [rowSum_block X hX hin hoi (ii := ii) fun x => x, rowSum_block X hX hin hoi (ii := ii) fun x => x * x, hbl]
    · intro h
      rw [h] at hbl
      have : (0 : ℝ) < (numel inner : ℤ) := by exact_mod_cast hK
      simp at hbl
      rw [← hbl] at this
      exact lt_irrefl _ this
  simp only
  have htake : (oi ++ ii).take outer.length = oi := by rw [← hoi.length, List.take_left]
  rw [htake]
  refine ⟨?_, ?_, ?_⟩
  · have hmem : 0 ≤ lin X.shape (oi ++ ii) / numel inner ∧ lin X.shape (oi ++ ii) / numel inner < numel outer := by
      rw [hX, lin_append _ _ _ _ hoi.length, (row_div (lin_bounds hii).1 (lin_bounds hii).2).1]
      exact hlb
    rw [w.Y.2.1 _ hmem, normVal_at false X hX eps (bcastVal scale) (biasVal bias) hoi hii]
    simp only [rowShift, rowInv, Bool.false_eq_true, if_false, hm, hv]
    rw [mul_one_div]
  · intro b hbm
    have := w.mean.val hbm (lin outer oi) ⟨rfl, hlb⟩
    rw [this, hm]
  · intro b hbm
    have := w.inv.val hbm (lin outer oi) hlb
    rw [this, rowInv, hv]

/-- C78.  RMSLayerNormalization (SIMD code): every element becomes x / sqrt(mean of the squares +
epsilon) * scale + bias. -/
theorem C78_rmsnorm (lit : Bool) (X : Mem ℝ) (outer inner : List ℤ) (hX : X.shape = outer ++ inner) (hout : ∀ d ∈ outer, 0 ≤ d)
    (hin : ∀ d ∈ inner, 0 < d) (od : List ODim) (orank : ℕ) (scale : Mem ℝ) (hs : OperandOk od orank (outer ++ inner) outer.length scale)
    (bias : Option (List ODim × ℕ × Mem ℝ)) (hb : BiasOk outer inner bias) (eps : ℝ) (he : 0 < eps) (VL B : ℕ) (hV : 0 < VL) (hB : 0 < B)
    (hd : (VL : ℤ) ∣ numel inner) (o : LnOut) (ho : LnSized (numel outer) (numel inner) o) :
    ∃ o', lnSimd true lit X.flat (lnOperand od orank outer.length scale.flat) (biasOperand outer.length bias) (numel outer) (numel inner)
        eps VL B o = some o' ∧ o'.Y.size = numel X.shape ∧ o'.inv.isSome = o.inv.isSome ∧
      ∀ i, InShape i X.shape →
        let v := meanOf (blockOf X.shape outer.length i) fun j => X.data j * X.data j
        o'.Y.data (lin X.shape i) = X.data i / Real.sqrt (v + eps) * bcastVal scale i + biasVal bias i ∧
        ∀ b, o'.inv = some b → b.data (lin outer (i.take outer.length)) = 1 / Real.sqrt (v + eps) := by
  obtain ⟨o', e, w⟩ := layernorm_run true lit X outer inner hout hin od orank scale hs bias hb eps he VL B hV hB hd o ho
  refine ⟨o', e, by rw [w.Y.1, ho.Y, hX, numel_append], w.inv.isSome, ?_⟩
  intro i hi
  have hi' := hi
  rw [hX] at hi'
  obtain ⟨oi, ii, rfl, hoi, hii⟩ := inShape_split' hi'
  have hlb := lin_bounds hoi
  have hbl : ((blockOf X.shape outer.length (oi ++ ii)).length : ℝ) = (numel inner : ℤ) := by rw [hX]; exact blockOf_length hin hoi
  have hv : rowVar true X.flat (numel inner) (lin outer oi) =
      meanOf (blockOf X.shape outer.length (oi ++ ii)) fun j => X.data j * X.data j := by
    unfold rowVar meanOf
    simp only [if_true]
    rw [rowSum_block X hX hin hoi (ii := ii) fun x => x * x, hbl]
  simp only
  have htake : (oi ++ ii).take outer.length = oi := by rw [← hoi.length, List.take_left]
  rw [htake]
  refine ⟨?_, ?_⟩
  · have hmem : 0 ≤ lin X.shape (oi ++ ii) / numel inner ∧ lin X.shape (oi ++ ii) / numel inner < numel outer := by
      rw [hX, lin_append _ _ _ _ hoi.length, (row_div (lin_bounds hii).1 (lin_bounds hii).2).1]
      exact hlb
    rw [w.Y.2.1 _ hmem, normVal_at true X hX eps (bcastVal scale) (biasVal bias) hoi hii]
    simp only [rowShift, rowInv, if_true, hv]
    rw [mul_one_div, sub_zero]
  · intro b hbm
    have := w.inv.val hbm (lin outer oi) hlb
    rw [this, rowInv, hv]

/-- The hypotheses are met by a 5x4 input (five rows in blocks of four, vectors of two) with a scale
of size 4 and a bias that varies with the row. -/
example (X : Idx → ℝ) (s b : Idx → ℝ) :
    OperandOk [⟨1, true, false⟩, ⟨4, false, true⟩] 1 ([5] ++ [4]) 1 ⟨[1, 4], s⟩ ∧
    BiasOk [5] [4] (some ([⟨5, false, true⟩, ⟨1, true, false⟩], 2, ⟨[5, 1], b⟩)) ∧ ((2 : ℕ) : ℤ) ∣ numel [4] ∧
    LnSized (numel [5]) (numel [4]) ⟨⟨20, fun _ => 0⟩, some ⟨5, fun _ => 0⟩, some ⟨5, fun _ => 0⟩⟩ := by
  refine ⟨⟨rfl, ⟨rfl, by decide, by simp, by simp, by simp, by simp⟩, by decide⟩,
    ⟨rfl, ⟨rfl, by decide, by simp, by simp, by simp, by simp⟩, by decide⟩, by decide, ⟨by decide, ?_, ?_⟩⟩
  · intro b hb; cases hb; decide
  · intro b hb; cases hb; decide

/-- C78.  The kinds are what they should be: a scale over the last two of three dimensions is
"partially specified" for an axis in between and its rows repeat. -/
example : bcastKind [⟨1, true, false⟩, ⟨3, false, true⟩, ⟨4, false, true⟩] 2 2 = (.partFull, 3) := by decide

/-- C78 fails for the optional output InvStdDev of RMSLayerNormalization: the shape is looked up at
position 2 of the list of output shapes, which has only two entries. -/
theorem C78_rms_invstddev_false (hasMean : Bool) (dims : List ℤ) (axis : ℕ) : lnInvDims true hasMean true dims axis = none := rfl

/-- C78.  For LayerNormalization the shapes of the optional outputs are those of the input with ones from
the axis on. -/
theorem C78_outputs_shapes (hasMean hasInv : Bool) (dims : List ℤ) (axis : ℕ) :
    lnOutDims false hasMean hasInv dims axis = [dims,
      if hasMean then dims.take axis ++ List.replicate (dims.length - axis) 1 else [],
      if hasInv then dims.take axis ++ List.replicate (dims.length - axis) 1 else []] ∧
    (hasInv = true → lnInvDims false hasMean hasInv dims axis = some (dims.take axis ++ List.replicate (dims.length - axis) 1)) := by
  cases hasMean <;> cases hasInv <;> simp [lnOutDims, lnInvDims]

end Verif.Props
