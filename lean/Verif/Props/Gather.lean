import Verif.Lower.ScatterLemmas

/-!
C59: Gather, GatherElements and GatherND read the elements selected by the indices.
C60: ScatterElements, ScatterND and OneHot write the values selected by the indices.
-/

namespace Verif.Props

open Verif.Lower

variable {R : Type*}

/-- Gather along the dimension `d` between `da` and `dc`, with indices in `[-d, d)`:
`out[a, j, c] = data[a, indices[j], c]`, negative indices counting from the end.  The
code that does not handle negative indices is used only for non-negative constants. -/
theorem C59_gather (da dc : List ℤ) (d : ℤ) (data : Mem R) (ind : Mem ℤ) (axis : ℤ) (mayNeg safe : Bool)
    (junk : Idx → R) (hdata : data.shape = da ++ [d] ++ dc)
    (hax : axis = da.length ∨ axis = (da.length : ℤ) - data.shape.length)
    (hr : ∀ j, InShape j ind.shape → -d ≤ ind.data j ∧ ind.data j < d)
    (hneg : mayNeg = true ∨ ∀ j, InShape j ind.shape → 0 ≤ ind.data j) :
    ∃ out, gather data ind axis mayNeg safe junk = some out ∧ out.shape = da ++ ind.shape ++ dc ∧
      ∀ a j c, InShape a da → InShape j ind.shape → InShape c dc →
        out.data (a ++ j ++ c) =
          data.data (a ++ [if ind.data j < 0 then ind.data j + d else ind.data j] ++ c) := by
  have hg : ∀ j, InShape j ind.shape → gatherIndex mayNeg safe d (ind.data j) = wrapIdx d (ind.data j) :=
    fun j hj => gatherIndex_wrap safe (hr j hj) (hneg.imp_right fun h => h j hj)
  obtain ⟨out, e, hs, h⟩ := gather_spec junk hdata hax (mayNeg := mayNeg) (safe := safe)
    (fun j hj => by rw [hg j hj]; exact wrapIdx_range (hr j hj))
  refine ⟨out, e, hs, fun a j c ha hj hc => ?_⟩
  rw [h a j c ha hj hc, hg j hj]
  rfl

example : ∃ (data : Mem ℤ) (ind : Mem ℤ), data.shape = [2] ++ [3] ++ [2] ∧ ind.shape = [2, 2] ∧
    (∀ j, InShape j ind.shape → -3 ≤ ind.data j ∧ ind.data j < 3) ∧
    (gather data ind (-2) true false (fun _ => 0)).map (fun o => (o.shape, o.data [1, 0, 1, 1])) =
      some ([2, 2, 2, 2], 121) :=
  ⟨⟨[2, 3, 2], fun i => 100 * i.getD 0 0 + 10 * i.getD 1 0 + i.getD 2 0⟩,
   ⟨[2, 2], fun j => if j = [0, 1] then -1 else 0⟩, rfl, rfl,
   fun j _ => by simp only; split <;> omega, by decide +kernel⟩

/-- With safe code generation no index value makes Gather read outside its data, as long
as the dimension is not empty; indices in range are not changed. -/
theorem C59_gather_safe (da dc : List ℤ) (d : ℤ) (data : Mem R) (ind : Mem ℤ) (axis : ℤ) (mayNeg : Bool)
    (junk : Idx → R) (hdata : data.shape = da ++ [d] ++ dc) (hd : 0 < d)
    (hax : axis = da.length ∨ axis = (da.length : ℤ) - data.shape.length)
    (hneg : mayNeg = true ∨ ∀ j, InShape j ind.shape → 0 ≤ ind.data j) :
    ∃ out, gather data ind axis mayNeg true junk = some out ∧ out.shape = da ++ ind.shape ++ dc ∧
      ∀ a j c, InShape a da → InShape j ind.shape → InShape c dc →
        ∃ i, 0 ≤ i ∧ i < d ∧ out.data (a ++ j ++ c) = data.data (a ++ [i] ++ c) ∧
          (0 ≤ ind.data j ∧ ind.data j < d → i = ind.data j) ∧
          (-d ≤ ind.data j ∧ ind.data j < 0 → i = ind.data j + d) := by
  obtain ⟨out, e, hs, h⟩ := gather_spec junk hdata hax (mayNeg := mayNeg) (safe := true)
    (fun j _ => gatherIndex_safe (ind.data j) mayNeg hd)
  refine ⟨out, e, hs, fun a j c ha hj hc => ?_⟩
  have hb := gatherIndex_safe (ind.data j) mayNeg hd
  refine ⟨_, hb.1, hb.2, h a j c ha hj hc, ?_, ?_⟩
  · intro hi
    rw [gatherIndex_wrap true (by omega) (hneg.imp_right fun h => h j hj)]
    unfold wrapIdx; rw [if_neg (by omega)]
  · intro hi
    rw [gatherIndex_wrap true (by omega) (hneg.imp_right fun h => h j hj)]
    unfold wrapIdx; rw [if_pos (by omega)]

example : (gather (⟨[3], fun i => i.getD 0 0⟩ : Mem ℤ) ⟨[3], fun j => 100 * (j.getD 0 0 - 1)⟩ 0 true true
    (fun _ => 7)).map (fun o => (o.data [0], o.data [1], o.data [2])) = some (0, 0, 2) := by decide +kernel

/-- The statement without `0 < d` is false: the clamp gives the index -1. -/
theorem C59_gather_safe_empty_false :
    ¬ ∀ (data : Mem ℤ) (ind : Mem ℤ), data.shape.length = 1 →
        (gather data ind 0 true true (fun _ => 0)).isSome := by
  intro h
  exact absurd (h ⟨[0], fun _ => 0⟩ ⟨[1], fun _ => 0⟩ rfl) (by decide +kernel)

/-- GatherElements: `out[a, j, c] = data[a, indices[a, j, c], c]`. -/
theorem C59_gather_elements (da dc ia ic : List ℤ) (d m : ℤ) (data : Mem R) (ind : Mem ℤ) (axis : ℤ)
    (mayNeg safe : Bool) (junk : Idx → R) (hdata : data.shape = da ++ [d] ++ dc)
    (hind : ind.shape = ia ++ [m] ++ ic) (hla : List.Forall₂ (· ≤ ·) ia da) (hlc : List.Forall₂ (· ≤ ·) ic dc)
    (hax : axis = da.length ∨ axis = (da.length : ℤ) - data.shape.length)
    (hr : ∀ j, InShape j ind.shape → -d ≤ ind.data j ∧ ind.data j < d)
    (hneg : mayNeg = true ∨ ∀ j, InShape j ind.shape → 0 ≤ ind.data j) :
    ∃ out, gatherElements data ind axis mayNeg safe junk = some out ∧ out.shape = ind.shape ∧
      ∀ a j c, InShape (a ++ [j] ++ c) ind.shape → a.length = da.length →
        ∀ i, ind.data (a ++ [j] ++ c) = i →
          out.data (a ++ [j] ++ c) = data.data (a ++ [if i < 0 then i + d else i] ++ c) := by
  have hg : ∀ j, InShape j ind.shape → gatherIndex mayNeg safe d (ind.data j) = wrapIdx d (ind.data j) :=
    fun j hj => gatherIndex_wrap safe (hr j hj) (hneg.imp_right fun h => h j hj)
  obtain ⟨out, e, hs, h⟩ := gatherElements_spec junk hdata hind hla hlc hax (mayNeg := mayNeg) (safe := safe)
    (fun j hj => by rw [hg j hj]; exact wrapIdx_range (hr j hj))
  refine ⟨out, e, hs, fun a j c hj hal i hi => ?_⟩
  rw [h a j c hj hal, hg _ hj, hi]
  rfl

example : ∃ (data : Mem ℤ) (ind : Mem ℤ), data.shape = [2] ++ [3] ++ [2] ∧ ind.shape = [1] ++ [4] ++ [2] ∧
    (∀ j, InShape j ind.shape → -3 ≤ ind.data j ∧ ind.data j < 3) ∧
    (gatherElements data ind 1 true false (fun _ => 0)).map (fun o => (o.shape, o.data [0, 3, 1])) =
      some ([1, 4, 2], 21) :=
  ⟨⟨[2, 3, 2], fun i => 100 * i.getD 0 0 + 10 * i.getD 1 0 + i.getD 2 0⟩,
   ⟨[1, 4, 2], fun j => if j = [0, 3, 1] then -1 else 0⟩, rfl, rfl,
   fun j _ => by simp only; split <;> omega, by decide +kernel⟩

/-- With safe code generation GatherElements never reads outside its data. -/
theorem C59_gather_elements_safe (da dc ia ic : List ℤ) (d m : ℤ) (data : Mem R) (ind : Mem ℤ) (axis : ℤ)
    (mayNeg : Bool) (junk : Idx → R) (hdata : data.shape = da ++ [d] ++ dc) (hd : 0 < d)
    (hind : ind.shape = ia ++ [m] ++ ic) (hla : List.Forall₂ (· ≤ ·) ia da) (hlc : List.Forall₂ (· ≤ ·) ic dc)
    (hax : axis = da.length ∨ axis = (da.length : ℤ) - data.shape.length) :
    ∃ out, gatherElements data ind axis mayNeg true junk = some out ∧ out.shape = ind.shape ∧
      ∀ a j c, InShape (a ++ [j] ++ c) ind.shape → a.length = da.length →
        ∃ i, 0 ≤ i ∧ i < d ∧ out.data (a ++ [j] ++ c) = data.data (a ++ [i] ++ c) := by
  obtain ⟨out, e, hs, h⟩ := gatherElements_spec junk hdata hind hla hlc hax (mayNeg := mayNeg) (safe := true)
    (fun j _ => gatherIndex_safe (ind.data j) mayNeg hd)
  refine ⟨out, e, hs, fun a j c hj hal => ?_⟩
  have hb := gatherIndex_safe (ind.data (a ++ [j] ++ c)) mayNeg hd
  exact ⟨_, hb.1, hb.2, h a j c hj hal⟩

example : (gatherElements (⟨[2, 2], fun i => 10 * i.getD 0 0 + i.getD 1 0⟩ : Mem ℤ)
    ⟨[2, 1], fun j => 100 * (j.getD 0 0) - 50⟩ 1 true true (fun _ => 7)).map
      (fun o => (o.data [0, 0], o.data [1, 0])) = some (0, 11) := by decide +kernel

/-- GatherND with batch dimensions `B`, indices of shape `B ++ I ++ [|X|]` and data of
shape `B ++ X ++ Y`: `out[b, i, y] = data[b, indices[b, i, 0], ..., indices[b, i, |X|-1], y]`.
Partial: the indices must not be negative. -/
theorem C59_gather_nd_partial (B I X Y : List ℤ) (data : Mem R) (ind : Mem ℤ) (junk : ℤ → R)
    (hdata : data.shape = B ++ X ++ Y) (hind : ind.shape = B ++ I ++ [(X.length : ℤ)]) (hX : 0 < X.length)
    (hp : (∀ d ∈ B, 0 ≤ d) ∧ (∀ d ∈ I, 0 ≤ d) ∧ ∀ d ∈ Y, 0 ≤ d)
    (hr : ∀ b i, InShape b B → InShape i I →
      InShape ((List.range X.length).map fun (k : ℕ) => ind.data (b ++ i ++ [(k : ℤ)])) X) :
    ∃ out, gatherND data ind B.length junk = some out ∧ out.shape = B ++ I ++ Y ∧
      ∀ b i y, InShape b B → InShape i I → InShape y Y →
        out.data (b ++ i ++ y) =
          data.data (b ++ ((List.range X.length).map fun (k : ℕ) => ind.data (b ++ i ++ [(k : ℤ)])) ++ y) :=
  gatherND_spec junk hdata hind hX hp hr

example : ∃ (data : Mem ℤ) (ind : Mem ℤ), data.shape = [2] ++ [3] ++ [2] ∧ ind.shape = [2] ++ [1] ++ [1] ∧
    (∀ b i, InShape b [2] → InShape i [1] →
      InShape ((List.range 1).map fun (k : ℕ) => ind.data (b ++ i ++ [(k : ℤ)])) [3]) ∧
    (gatherND data ind 1 (fun _ => 0)).map (fun o => (o.shape, o.data [1, 0, 1])) = some ([2, 1, 2], 121) :=
  ⟨⟨[2, 3, 2], fun i => 100 * i.getD 0 0 + 10 * i.getD 1 0 + i.getD 2 0⟩,
   ⟨[2, 1, 1], fun _ => 2⟩, rfl, rfl, fun b i _ _ => inShape_one (by simp only; omega), by decide +kernel⟩

/-- The full statement allows negative indices, as ONNX and the operator verifier do:
false, the lowering does not add the dimension and reads outside the data. -/
theorem C59_gather_nd_negative_false :
    ¬ ∀ (data : Mem ℤ) (ind : Mem ℤ), data.shape = [3] → ind.shape = [1, 1] →
        (-3 ≤ ind.data [0, 0] ∧ ind.data [0, 0] < 3) → (gatherND data ind 0 (fun _ => 0)).isSome := by
  intro h
  exact absurd (h ⟨[3], fun _ => 0⟩ ⟨[1, 1], fun _ => -1⟩ rfl rfl (by decide)) (by decide +kernel)

/-- ScatterElements without reduction: `out` is `data` with `updates[p]` written at `p`
with the coordinate of the axis replaced by `indices[p]`.  When several updates have the
same target, the last one in row-major order wins; ONNX asks for distinct targets. -/
theorem C60_scatter_elements_partial (da dc ua uc : List ℤ) (d m : ℤ) (data upd : Mem R) (ind : Mem ℤ) (axis : ℤ)
    (mayNeg : Bool) (hdata : data.shape = da ++ [d] ++ dc) (hupd : upd.shape = ua ++ [m] ++ uc)
    (hind : ind.shape = upd.shape) (hpos : ∀ x ∈ upd.shape, 0 ≤ x)
    (hla : List.Forall₂ (· ≤ ·) ua da) (hlc : List.Forall₂ (· ≤ ·) uc dc)
    (hax : axis = da.length ∨ axis = (da.length : ℤ) - data.shape.length)
    (hr : ∀ p, InShape p ind.shape → -d ≤ ind.data p ∧ ind.data p < d)
    (hneg : mayNeg = true ∨ ∀ p, InShape p ind.shape → 0 ≤ ind.data p)
    (tgt : Idx → Idx)
    (htgt : ∀ p, tgt p = p.set da.length (if ind.data p < 0 then ind.data p + d else ind.data p)) :
    ∃ out, scatterElements data ind upd axis mayNeg = some out ∧ out.shape = data.shape ∧
      (∀ p, InShape p upd.shape →
        (∀ q, InShape q upd.shape → tgt q = tgt p → lin upd.shape q ≤ lin upd.shape p) →
        out.data (tgt p) = upd.data p) ∧
      ∀ x, (∀ p, InShape p upd.shape → tgt p ≠ x) → out.data x = data.data x := by
  have : tgt = elemTarget da.length d ind := by funext p; rw [htgt]; rfl
  subst this
  exact scatterElements_spec hdata hupd hind hpos hla hlc hax hr hneg

example : ∃ (data upd : Mem ℤ) (ind : Mem ℤ), data.shape = [3] ++ [3] ++ [] ∧ upd.shape = [2] ++ [1] ++ [] ∧
    ind.shape = upd.shape ∧ (∀ p, InShape p ind.shape → -3 ≤ ind.data p ∧ ind.data p < 3) ∧
    (scatterElements data ind upd (-1) true).map
      (fun o => (o.data [0, 2], o.data [1, 0], o.data [0, 0], o.data [2, 2])) = some (10, 11, 0, 0) :=
  ⟨⟨[3, 3], fun _ => 0⟩, ⟨[2, 1], fun i => 10 + i.getD 0 0⟩,
   ⟨[2, 1], fun i => if i = [0, 0] then -1 else 0⟩, rfl, rfl, rfl,
   fun p _ => by simp only; split <;> omega, by decide +kernel⟩

/-- The attribute `reduction` is not implemented: with `add`, the update of a single
element should give `data + update`. -/
theorem C60_reduction_false :
    ¬ ∀ (data upd : Mem ℤ) (ind : Mem ℤ), data.shape = [1] → upd.shape = [1] → ind.shape = [1] →
        ind.data [0] = 0 →
        (scatterElements data ind upd 0 true).map (fun o => o.data [0]) =
          some (data.data [0] + upd.data [0]) := by
  intro h
  exact absurd (h ⟨[1], fun _ => 1⟩ ⟨[1], fun _ => 1⟩ ⟨[1], fun _ => 0⟩ rfl rfl rfl rfl) (by decide +kernel)

/-- ScatterND: with data of shape `X ++ Y`, indices of shape `I ++ [|X|]` and updates of
shape `I ++ Y`, `out` is `data` with `updates[i, y]` written at
`[indices[i, 0], ..., indices[i, |X|-1], y]`.
Partial: proved when the last dimension of the indices is their rank minus one
(`|I| = |X|`) and no index is negative; no reduction. -/
theorem C60_scatter_nd_partial (I X Y : List ℤ) (data upd : Mem R) (ind : Mem ℤ)
    (hdata : data.shape = X ++ Y) (hupd : upd.shape = I ++ Y)
    (hind : ind.shape = I ++ [(X.length : ℤ)]) (hIX : I.length = X.length) (hpos : ∀ x ∈ upd.shape, 0 ≤ x)
    (tgt : Idx → Idx → Idx)
    (htgt : ∀ i y, tgt i y = ((List.range X.length).map fun (k : ℕ) => ind.data (i ++ [(k : ℤ)])) ++ y)
    (hr : ∀ i, InShape i I → InShape (tgt i []) X) :
    ∃ out, scatterND data ind upd = some out ∧ out.shape = data.shape ∧
      (∀ i y, InShape i I → InShape y Y →
        (∀ i' y', InShape i' I → InShape y' Y → tgt i' y' = tgt i y →
          lin upd.shape (i' ++ y') ≤ lin upd.shape (i ++ y)) →
        out.data (tgt i y) = upd.data (i ++ y)) ∧
      ∀ x, (∀ i y, InShape i I → InShape y Y → tgt i y ≠ x) → out.data x = data.data x := by
  have : tgt = fun i y => tupleAt ind i X.length ++ y := by funext i y; rw [htgt]; rfl
  subst this
  simp only [List.append_nil] at hr
  exact scatterND_spec hdata hupd hind hIX hpos hr

example : ∃ (data upd : Mem ℤ) (ind : Mem ℤ), data.shape = [3] ++ [2] ∧ upd.shape = [2] ++ [2] ∧
    ind.shape = [2] ++ [1] ∧
    (∀ i, InShape i [2] → InShape ((List.range 1).map fun (k : ℕ) => ind.data (i ++ [(k : ℤ)])) [3]) ∧
    (scatterND data ind upd).map (fun o => (o.data [2, 1], o.data [0, 0], o.data [1, 0])) = some (101, 110, 0) :=
  ⟨⟨[3, 2], fun _ => 0⟩, ⟨[2, 2], fun i => 100 + 10 * i.getD 0 0 + i.getD 1 0⟩,
   ⟨[2, 1], fun i => if i = [0, 0] then 2 else 0⟩, rfl, rfl, rfl,
   fun i _ => inShape_one (by simp only; split <;> omega), by decide +kernel⟩

/-- When the last dimension of the indices is not their rank minus one the update goes
to a wrong element: here `indices = [[0, 1]]` should write `out[0, 1]`. -/
theorem C60_scatter_nd_false :
    ¬ ∀ (data upd : Mem ℤ) (ind : Mem ℤ), data.shape = [2, 2] → upd.shape = [1] → ind.shape = [1, 2] →
        ind.data [0, 0] = 0 → ind.data [0, 1] = 1 →
        (scatterND data ind upd).map (fun o => o.data [0, 1]) = some (upd.data [0]) := by
  intro h
  exact absurd (h ⟨[2, 2], fun _ => 0⟩ ⟨[1], fun _ => 5⟩ ⟨[1, 2], fun i => i.getD 1 0⟩ rfl rfl rfl rfl rfl)
    (by decide +kernel)

/-- It may also read outside the indices. -/
theorem C60_scatter_nd_bounds_false :
    ¬ ∀ (data upd : Mem ℤ) (ind : Mem ℤ), data.shape = [3, 2] → upd.shape = [1, 1, 2] → ind.shape = [1, 1, 1] →
        ind.data [0, 0, 0] = 0 → (scatterND data ind upd).isSome := by
  intro h
  exact absurd (h ⟨[3, 2], fun _ => 0⟩ ⟨[1, 1, 2], fun _ => 5⟩ ⟨[1, 1, 1], fun _ => 0⟩ rfl rfl rfl rfl)
    (by decide +kernel)

/-- Negative indices, which ONNX allows, write outside the output. -/
theorem C60_scatter_nd_negative_false :
    ¬ ∀ (data upd : Mem ℤ) (ind : Mem ℤ), data.shape = [3] → upd.shape = [1] → ind.shape = [1, 1] →
        (-3 ≤ ind.data [0, 0] ∧ ind.data [0, 0] < 3) → (scatterND data ind upd).isSome := by
  intro h
  exact absurd (h ⟨[3], fun _ => 0⟩ ⟨[1], fun _ => 5⟩ ⟨[1, 1], fun _ => -1⟩ rfl rfl rfl (by decide))
    (by decide +kernel)

/-- OneHot: `out[a, d, c]` is the on value exactly when `indices[a, c]` is `d` or
`d - depth`, and the off value otherwise; indices out of range give a row of off values. -/
theorem C60_one_hot (ia ic : List ℤ) (ind : Mem ℤ) (values : Mem R) (depth axis : ℤ) (junk : Idx → R)
    (hind : ind.shape = ia ++ ic) (hv : values.shape = [2])
    (hax : axis = ia.length ∨ axis = (ia.length : ℤ) - (ind.shape.length + 1)) :
    ∃ out, oneHot ind depth values axis junk = some out ∧ out.shape = ia ++ [depth] ++ ic ∧
      ∀ a d c, InShape a ia → 0 ≤ d ∧ d < depth → InShape c ic →
        out.data (a ++ [d] ++ c) =
          if ind.data (a ++ c) = d ∨ ind.data (a ++ c) = d - depth then values.data [1] else values.data [0] :=
  oneHot_spec junk hind hv hax

example : (oneHot ⟨[2], fun i => if i = [0] then -1 else 7⟩ 3 (⟨[2], fun i => i.getD 0 0⟩ : Mem ℤ) (-1)
    (fun _ => 9)).map (fun o => (o.shape, o.data [0, 2], o.data [0, 0], o.data [1, 1])) =
      some ([2, 3], 1, 0, 0) := by decide +kernel

end Verif.Props
