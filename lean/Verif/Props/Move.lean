import Verif.Lower.TransposeLemmas

/-!
C61: Concat, Split, Slice, Tile, Transpose and ReverseSequence move every element to its
place.
C62: Pad surrounds the data as its mode says.
C63: DepthToSpace and SpaceToDepth exchange channels and blocks of pixels.
-/

namespace Verif.Props

open Verif.Lower

variable {R : Type*}

/-! ### C61 -/

/-- Concat along the dimension between `da` and `dc`, for inputs whose other dimensions
agree: the element at position `x` of input `k` is at position `x` plus the sizes of the
previous inputs. -/
theorem C61_concat (da dc : List ℤ) (inputs : List (Mem R)) (junk : Idx → R) (hne : inputs ≠ [])
    (hin : ∀ m ∈ inputs, ∃ d, 0 ≤ d ∧ m.shape = da ++ [d] ++ dc) :
    ∃ out, concat inputs da.length junk = some out ∧
      out.shape = da ++ [(inputs.map fun m => m.shape.getD da.length 0).sum] ++ dc ∧
      ∀ (k : ℕ) (m : Mem R), inputs[k]? = some m → ∀ a x c, InShape (a ++ [x] ++ c) m.shape →
        a.length = da.length →
        out.data (a ++ [((inputs.take k).map fun m => m.shape.getD da.length 0).sum + x] ++ c) =
          m.data (a ++ [x] ++ c) := by
  have hdims : concatDims inputs da.length =
      da ++ [(inputs.map fun m => m.shape.getD da.length 0).sum] ++ dc := by
    cases inputs with
    | nil => exact absurd rfl hne
    | cons m rest =>
      obtain ⟨d, _, hm⟩ := hin m (by simp)
      unfold concatDims
      simp only
      rw [show m.shape.set da.length _ = _ from congrArg (fun l => List.set l da.length _) hm,
        List.append_assoc, List.set_append_right _ _ (le_refl _)]
      simp
  obtain ⟨o, e, hs, _, h⟩ := concatLoop_spec (n := (inputs.map fun m => m.shape.getD da.length 0).sum)
    (⟨_, hdims⟩ : ∃ u, concatDims inputs da.length = da ++ [u] ++ dc) inputs 0 0
    ⟨concatDims inputs da.length, junk⟩ hin hdims (fun _ => rfl) (le_refl _) (by rw [zero_add]; exact le_refl _)
  refine ⟨o, e, hs, ?_⟩
  intro k m hk a x c hx hl
  have := h k m hk a x c hx hl
  rw [zero_add] at this
  exact this

example : ∃ inputs : List (Mem ℤ), inputs ≠ [] ∧
    (∀ m ∈ inputs, ∃ d, 0 ≤ d ∧ m.shape = [2] ++ [d] ++ [2]) ∧
    (concat inputs 1 (fun _ => 0)).map (fun o => (o.shape, o.data [1, 2, 1], o.data [0, 0, 1])) =
      some ([2, 4, 2], 1121, 1) :=
  ⟨[⟨[2, 1, 2], fun i => 100 * i.getD 0 0 + 10 * i.getD 1 0 + i.getD 2 0⟩,
    ⟨[2, 3, 2], fun i => 1010 + 100 * i.getD 0 0 + 10 * (i.getD 1 0 - 1) + i.getD 2 0 + 10⟩], by simp,
   by simp, by decide +kernel⟩

/-- Split along the dimension between `da` and `dc` into parts that fit: part `k` holds the
elements after the previous parts. -/
theorem C61_split (da dc : List ℤ) (d : ℤ) (data : Mem R) (sizes : List ℤ) (junk : Idx → R)
    (hdata : data.shape = da ++ [d] ++ dc) (hs : ∀ s ∈ sizes, 0 ≤ s) (hsum : sizes.sum ≤ d) :
    ∃ outs, split data da.length sizes junk = some outs ∧ outs.length = sizes.length ∧
      ∀ (k : ℕ) (s : ℤ), sizes[k]? = some s → ∃ o, outs[k]? = some o ∧ o.shape = da ++ [s] ++ dc ∧
        ∀ a x c, InShape (a ++ [x] ++ c) o.shape → a.length = da.length →
          o.data (a ++ [x] ++ c) = data.data (a ++ [(sizes.take k).sum + x] ++ c) := by
  choose o e h1 h2 using splitOne_spec (sizes := sizes) junk hdata hs hsum
  refine ⟨(List.range sizes.length).map o, mapM_some _ _ _ fun i _ => e i, by simp, ?_⟩
  intro k s hk
  have hlt : k < sizes.length := (List.getElem?_eq_some_iff.1 hk).1
  have hg : sizes.getD k 0 = s := by rw [List.getD_eq_getElem?_getD, hk]; rfl
  refine ⟨o k, by rw [List.getElem?_map, List.getElem?_range hlt]; rfl, by rw [h1, hg], ?_⟩
  intro a x c hin hl
  rw [h1] at hin
  obtain ⟨a', x', c', e', ha, hx, hc⟩ := inShape3_split hin
  obtain ⟨rfl, rfl, rfl⟩ := split3_inj (by rw [hl, ha.length]) e'
  exact h2 k a x c ha hx.1 hx.2 hc

example : (split (⟨[2, 5], fun i => 10 * i.getD 0 0 + i.getD 1 0⟩ : Mem ℤ) 1 [2, 3] (fun _ => 0)).map
    (fun l => l.map fun o => (o.shape, o.data [1, 1])) = some [([2, 2], 11), ([2, 3], 13)] := by
  decide +kernel

/-- Parts that do not fit are read outside of the data. -/
theorem C61_split_overflow_false :
    ∃ (data : Mem ℤ) (sizes : List ℤ), data.shape = [5] ∧ sizes = [3, 3] ∧
      split data 0 sizes (fun _ => 0) = none :=
  ⟨⟨[5], fun _ => 0⟩, [3, 3], rfl, rfl, by decide +kernel⟩

/-- Splitting a concatenation at the sizes of its inputs gives the inputs back. -/
theorem C61_split_concat (da dc : List ℤ) (inputs : List (Mem R)) (junk : Idx → R) (hne : inputs ≠ [])
    (hin : ∀ m ∈ inputs, ∃ d, 0 ≤ d ∧ m.shape = da ++ [d] ++ dc) :
    ∃ out outs, concat inputs da.length junk = some out ∧
      split out da.length (inputs.map fun m => m.shape.getD da.length 0) junk = some outs ∧
      outs.length = inputs.length ∧
      ∀ (k : ℕ) (m : Mem R), inputs[k]? = some m → ∃ o, outs[k]? = some o ∧ o.shape = m.shape ∧
        ∀ i, InShape i m.shape → o.data i = m.data i := by
  obtain ⟨out, e, hs, h⟩ := C61_concat da dc inputs junk hne hin
  have hnn : ∀ s ∈ inputs.map fun m => m.shape.getD da.length 0, 0 ≤ s := by
    intro s hs
    obtain ⟨m, hm, rfl⟩ := List.mem_map.1 hs
    obtain ⟨d, hd, hm'⟩ := hin m hm
    rw [hm', getD_mid]
    exact hd
  obtain ⟨outs, e2, hl, h2⟩ := C61_split da dc _ out _ junk hs hnn (le_refl _)
  refine ⟨out, outs, e, e2, by rw [hl, List.length_map], ?_⟩
  intro k m hk
  obtain ⟨d, hd, hm⟩ := hin m (List.mem_of_getElem? hk)
  obtain ⟨o, ho, hos, h3⟩ := h2 k d (by rw [List.getElem?_map, hk, Option.map_some, hm, getD_mid])
  refine ⟨o, ho, by rw [hos, hm], ?_⟩
  intro i hi
  rw [hm] at hi
  obtain ⟨a, x, c, rfl, ha, hx, hc⟩ := inShape3_split hi
  rw [h3 a x c (by rw [hos]; exact hi) ha.length, ← List.map_take]
  exact h k m hk a x c (by rw [hm]; exact hi) ha.length

example : ∃ inputs : List (Mem ℤ), inputs ≠ [] ∧ ∀ m ∈ inputs, ∃ d, 0 ≤ d ∧ m.shape = [2] ++ [d] ++ [2] :=
  ⟨[⟨[2, 1, 2], fun _ => 0⟩, ⟨[2, 3, 2], fun _ => 1⟩], by simp, by simp⟩

/-- Slice copies the elements at `start + x * step`, when these are positions of the data
(which C32 is about). -/
theorem C61_slice (data : Mem R) (dims starts steps : List ℤ) (junk : Idx → R)
    (hl : dims.length = data.shape.length)
    (hr : ∀ (k : ℕ) (x : ℤ), k < dims.length → 0 ≤ x → x < dims.getD k 0 →
      0 ≤ starts.getD k 0 + x * steps.getD k 0 ∧ starts.getD k 0 + x * steps.getD k 0 < data.shape.getD k 0) :
    ∃ out, sliceCopy data dims starts steps junk = some out ∧ out.shape = dims ∧
      ∀ i j, InShape i dims → j.length = data.shape.length →
        (∀ k < dims.length, j.getD k 0 = starts.getD k 0 + i.getD k 0 * steps.getD k 0) →
        out.data i = data.data j := by
  obtain ⟨o, e, hs, h⟩ := sliceCopy_spec (starts := starts) (steps := steps) junk hl hr
  refine ⟨o, e, hs, fun i j hi hjl hj => ?_⟩
  obtain ⟨j', hj', h1, h2⟩ := h i hi
  rw [h1]
  congr 1
  refine ext_getD (by rw [hj'.length, hjl]) fun k hk => ?_
  rw [hjl, ← hl] at hk
  rw [h2 k hk, hj k hk]

example : (sliceCopy (⟨[2, 5], fun i => 10 * i.getD 0 0 + i.getD 1 0⟩ : Mem ℤ) [1, 2] [1, 4] [1, -3]
    (fun _ => 0)).map (fun o => (o.shape, o.data [0, 0], o.data [0, 1])) = some ([1, 2], 14, 11) := by
  decide +kernel

/-- Tile repeats the data along every dimension: adding a multiple of the size of a
dimension to an index does not change the element. -/
theorem C61_tile (data : Mem R) (repeats : List ℤ) (junk : Idx → R) (hd : ∀ d ∈ data.shape, 0 ≤ d)
    (hl : repeats.length = data.shape.length) :
    ∃ out, tile data repeats junk = some out ∧
      (out.shape.length = data.shape.length ∧
        ∀ k < data.shape.length, out.shape.getD k 0 = data.shape.getD k 0 * repeats.getD k 0) ∧
      ∀ i j, InShape i out.shape → InShape j data.shape →
        (∀ k < data.shape.length, ∃ q : ℤ, i.getD k 0 = q * data.shape.getD k 0 + j.getD k 0) →
        out.data i = data.data j := by
  obtain ⟨o, e, hs, h⟩ := tile_spec junk hd hl
  refine ⟨o, e, ⟨by rw [hs]; simp [hl], fun k hk => ?_⟩, ?_⟩
  · rw [hs]
    simp [List.getD_eq_getElem?_getD, hk, hl]
  · intro i j hi hj hij
    rw [h i hi]
    congr 1
    have hil : i.length = data.shape.length := by rw [hi.length, hs]; simp [hl]
    refine ext_getD (by simp [hil, hj.length]) fun k hk => ?_
    rw [hj.length] at hk
    obtain ⟨q, hq⟩ := hij k hk
    have hb := (inShape_iff.1 hj).2 k hk
    have e1 : (List.zipWith (fun i d => i % d) i data.shape).getD k 0 = i.getD k 0 % data.shape.getD k 0 := by
      simp [List.getD_eq_getElem?_getD, hk, hil]
    rw [e1, hq, add_comm, Int.add_mul_emod_self_right, Int.emod_eq_of_lt hb.1 hb.2]

example : (tile (⟨[2, 3], fun i => 10 * i.getD 0 0 + i.getD 1 0⟩ : Mem ℤ) [2, 2] (fun _ => 0)).map
    (fun o => (o.shape, o.data [3, 4])) = some ([4, 6], 11) := by decide +kernel

/-- Transpose by any permutation, whichever of the view, the block copy and the scalar loop
is used: output dimension `k` is input dimension `perm[k]`, and the element at `i` goes to
the index whose entry `k` is `i[perm[k]]`. -/
theorem C61_transpose (data : Mem R) (perm : List ℕ) (isOne : ℕ → Bool) (junk : Idx → R)
    (hp : perm.Perm (List.range data.shape.length))
    (hone : ∀ a < data.shape.length, isOne a = true → data.shape.getD a 0 = 1)
    (hnn : ∀ d ∈ data.shape, 0 ≤ d) :
    ∃ out, transpose data isOne perm junk = some out ∧
      out.shape = (perm.map fun p => data.shape.getD p 0) ∧
      (∀ i, InShape i data.shape → out.data (perm.map fun p => i.getD p 0) = data.data i) ∧
      ∀ o, InShape o out.shape → ∃ i, InShape i data.shape ∧ (perm.map fun p => i.getD p 0) = o := by
  obtain ⟨o, e, hs, h⟩ := transpose_spec junk hp hone hnn
  refine ⟨o, e, hs, h, fun x hx => ?_⟩
  rw [hs] at hx
  exact ⟨_, permuted_surj hp hx⟩

/-- The three versions are all reached. -/
example :
    ((transpose (⟨[2, 1, 3], fun i => 10 * i.getD 0 0 + i.getD 2 0⟩ : Mem ℤ) (fun a => a = 1) [1, 0, 2]
      (fun _ => 0)).map (fun o => (o.shape, o.data [0, 1, 2])) = some ([1, 2, 3], 12)) ∧
    canBeViewOp 3 (fun a => a = 1) [1, 0, 2] = true ∧
    ((transpose (⟨[2, 3, 2], fun i => 100 * i.getD 0 0 + 10 * i.getD 1 0 + i.getD 2 0⟩ : Mem ℤ) (fun _ => false)
      [1, 0, 2] (fun _ => 0)).map (fun o => (o.shape, o.data [2, 1, 0])) = some ([3, 2, 2], 120)) ∧
    unchangedInner [1, 0, 2] 3 = 1 ∧
    ((transpose (⟨[2, 3, 2], fun i => 100 * i.getD 0 0 + 10 * i.getD 1 0 + i.getD 2 0⟩ : Mem ℤ) (fun _ => false)
      [2, 0, 1] (fun _ => 0)).map (fun o => (o.shape, o.data [0, 1, 2])) = some ([2, 2, 3], 120)) ∧
    [2, 0, 1].Perm (List.range 3) := by
  refine ⟨by decide +kernel, by decide +kernel, by decide +kernel, by decide +kernel, by decide +kernel,
    by decide +kernel⟩

/-- ReverseSequence reverses the first `lens[b]` elements along the time axis, for every
batch `b`. -/
theorem C61_reverse_sequence (data : Mem R) (lens : Mem ℤ) (b t : ℕ) (junk : Idx → R)
    (hb : b < data.shape.length) (ht : t < data.shape.length) (hbt : b ≠ t)
    (hls : lens.shape = [data.shape.getD b 0])
    (hlen : ∀ x, 0 ≤ x → x < data.shape.getD b 0 → lens.data [x] ≤ data.shape.getD t 0) :
    ∃ out, reverseSequence data lens b t junk = some out ∧ out.shape = data.shape ∧
      ∀ i, InShape i data.shape →
        (i.getD t 0 < lens.data [i.getD b 0] →
          out.data i = data.data (i.set t (lens.data [i.getD b 0] - 1 - i.getD t 0))) ∧
        (lens.data [i.getD b 0] ≤ i.getD t 0 → out.data i = data.data i) := by
  obtain ⟨o, e, hs, h⟩ := reverseSequence_spec junk hb ht hls hlen
  refine ⟨o, e, hs, fun i hi => ⟨fun hlt => ?_, fun hge => ?_⟩⟩
  · rw [h i hi, if_pos hlt]
    congr 2
    ring
  · rw [h i hi, if_neg (by omega)]
    congr 1
    refine ext_getD (by simp) fun k hk => ?_
    by_cases hk' : t = k
    · subst hk'; rw [getD_set_eq _ hk]
    · rw [getD_set_ne _ hk']

example : (reverseSequence (⟨[4, 2], fun i => 10 * i.getD 0 0 + i.getD 1 0⟩ : Mem ℤ)
    ⟨[2], fun i => 2 + i.getD 0 0⟩ 1 0 (fun _ => 0)).map
    (fun o => [o.data [0, 0], o.data [1, 0], o.data [2, 0], o.data [0, 1], o.data [2, 1], o.data [3, 1]]) =
      some [10, 0, 20, 21, 1, 31] := by decide +kernel

/-- A length greater than the time dimension reads outside of the data. -/
theorem C61_reverse_sequence_length_false :
    ∃ (data : Mem ℤ) (lens : Mem ℤ), data.shape = [2, 1] ∧ lens.shape = [1] ∧ lens.data [0] = 3 ∧
      reverseSequence data lens 1 0 (fun _ => 0) = none :=
  ⟨⟨[2, 1], fun _ => 0⟩, ⟨[1], fun _ => 3⟩, rfl, rfl, rfl, by decide +kernel⟩

/-! ### C62 -/

/-- Constant padding with amounts that are not negative: the data is shifted by the begin
amounts, the rest of the output is the constant. -/
theorem C62_constant_partial (data : Mem R) (pads : List ℤ) (cValue : R) (junk : Idx → R)
    (hp : ∀ p ∈ pads, 0 ≤ p) :
    ∃ out, pad data pads .constant cValue junk = some out ∧
      (out.shape.length = data.shape.length ∧ ∀ k < data.shape.length, out.shape.getD k 0 =
        pads.getD k 0 + data.shape.getD k 0 + pads.getD (k + data.shape.length) 0) ∧
      (∀ i j, InShape i out.shape → InShape j data.shape →
        (∀ k < data.shape.length, i.getD k 0 = j.getD k 0 + pads.getD k 0) → out.data i = data.data j) ∧
      ∀ i k, InShape i out.shape → k < data.shape.length →
        (i.getD k 0 < pads.getD k 0 ∨ pads.getD k 0 + data.shape.getD k 0 ≤ i.getD k 0) →
        out.data i = cValue := by
  obtain ⟨o, e, hs, h1, h2⟩ := padConstant_spec (data := data) cValue junk hp
  exact ⟨o, e, ⟨by rw [hs]; simp [padDims], fun k hk => by rw [hs]; exact padDims_getD _ _ hk⟩, h1, h2⟩

example : (pad (⟨[2, 2], fun i => 10 * i.getD 0 0 + i.getD 1 0⟩ : Mem ℤ) [1, 0, 0, 2] .constant 7 (fun _ => 0)).map
    (fun o => [o.data [0, 1], o.data [1, 1], o.data [2, 0], o.data [2, 2]]) = some [7, 1, 10, 7] := by
  decide +kernel

/-- Negative amounts, which remove elements, make constant padding store outside of its
output. -/
theorem C62_negative_false :
    ∃ (data : Mem ℤ) (pads : List ℤ), data.shape = [3] ∧ pads = [-1, 0] ∧
      pad data pads .constant 0 (fun _ => 0) = none :=
  ⟨⟨[3], fun _ => 0⟩, [-1, 0], rfl, rfl, by decide +kernel⟩

/-- Edge padding of non-empty data, with any amounts: the nearest element of the data. -/
theorem C62_edge (data : Mem R) (pads : List ℤ) (cValue : R) (junk : Idx → R)
    (hd : ∀ d ∈ data.shape, 0 < d) :
    ∃ out, pad data pads .edge cValue junk = some out ∧
      (out.shape.length = data.shape.length ∧ ∀ k < data.shape.length, out.shape.getD k 0 =
        pads.getD k 0 + data.shape.getD k 0 + pads.getD (k + data.shape.length) 0) ∧
      ∀ i j, InShape i out.shape → j.length = data.shape.length →
        (∀ k < data.shape.length, j.getD k 0 = max 0 (min (i.getD k 0 - pads.getD k 0) (data.shape.getD k 0 - 1))) →
        out.data i = data.data j := by
  have hd' : ∀ k < data.shape.length, 0 < data.shape.getD k 0 := by
    intro k hk
    rw [List.getD_eq_getElem?_getD, List.getElem?_eq_getElem hk]
    exact hd _ (List.getElem_mem hk)
  have hidx : ∀ (p d x : ℤ), 0 < d → padIndex .edge p d x = max 0 (min (x - p) (d - 1)) := by
    intro p d x h
    simp only [padIndex]
    split <;> split <;> omega
  obtain ⟨o, e, hs, h⟩ := padOther_spec (data := data) (pads := pads) (mode := .edge) cValue junk (by simp)
    (by
      intro k x hk _ _
      have := hd' k hk
      rw [hidx _ _ _ this]
      omega)
  refine ⟨o, e, ⟨by rw [hs]; simp [padDims], fun k hk => by rw [hs]; exact padDims_getD _ _ hk⟩, ?_⟩
  intro i j hi hjl hj
  obtain ⟨j', hj', h1, h2⟩ := h i hi
  rw [h1]
  congr 1
  refine ext_getD (by rw [hj'.length, hjl]) fun k hk => ?_
  rw [hjl] at hk
  rw [h2 k hk, hj k hk, hidx _ _ _ (hd' k hk)]

example : (pad (⟨[3], fun i => i.getD 0 0⟩ : Mem ℤ) [2, 1] .edge 7 (fun _ => 9)).map
    (fun o => (List.range 6).map fun (k : ℕ) => o.data [(k : ℤ)]) = some [0, 0, 0, 1, 2, 2] ∧
    (pad (⟨[3], fun i => i.getD 0 0⟩ : Mem ℤ) [-1, 1] .edge 7 (fun _ => 9)).map
    (fun o => (List.range 3).map fun (k : ℕ) => o.data [(k : ℤ)]) = some [1, 2, 2] := by
  decide +kernel

/-- Reflect padding by less than the size of each dimension: positions before the data count
back from the first element, positions after it from the last one. -/
theorem C62_reflect_partial (data : Mem R) (pads : List ℤ) (cValue : R) (junk : Idx → R)
    (hp : ∀ k < data.shape.length, pads.getD k 0 < data.shape.getD k 0 ∧
      pads.getD (k + data.shape.length) 0 < data.shape.getD k 0) :
    ∃ out, pad data pads .reflect cValue junk = some out ∧
      (out.shape.length = data.shape.length ∧ ∀ k < data.shape.length, out.shape.getD k 0 =
        pads.getD k 0 + data.shape.getD k 0 + pads.getD (k + data.shape.length) 0) ∧
      ∀ i j, InShape i out.shape → InShape j data.shape →
        (∀ k < data.shape.length,
          j.getD k 0 = i.getD k 0 - pads.getD k 0 ∨
          (i.getD k 0 < pads.getD k 0 ∧ j.getD k 0 = pads.getD k 0 - i.getD k 0) ∨
          (pads.getD k 0 + data.shape.getD k 0 ≤ i.getD k 0 ∧
            (data.shape.getD k 0 - 1) - j.getD k 0 =
              (i.getD k 0 - pads.getD k 0) - (data.shape.getD k 0 - 1))) →
        out.data i = data.data j := by
  obtain ⟨o, e, hs, h⟩ := padOther_spec (data := data) (pads := pads) (mode := .reflect) cValue junk (by simp)
    (by
      intro k x hk h0 h1
      have := hp k hk
      simp only [padIndex]
      split <;> split <;> omega)
  refine ⟨o, e, ⟨by rw [hs]; simp [padDims], fun k hk => by rw [hs]; exact padDims_getD _ _ hk⟩, ?_⟩
  intro i j hi hj hij
  obtain ⟨j', hj', h1, h2⟩ := h i hi
  rw [h1]
  congr 1
  refine ext_getD (by rw [hj'.length, hj.length]) fun k hk => ?_
  rw [hj.length] at hk
  have h3 := (inShape_iff.1 hj).2 k hk
  have h4 := (inShape_iff.1 hj').2 k hk
  have h5 := hij k hk
  have h6 := hp k hk
  rw [h2 k hk] at h4 ⊢
  simp only [padIndex] at h4 ⊢
  split at h4 <;> split at h4 <;> (repeat' split) <;> omega

example : (pad (⟨[3], fun i => i.getD 0 0⟩ : Mem ℤ) [2, 2] .reflect 7 (fun _ => 9)).map
    (fun o => (List.range 7).map fun (k : ℕ) => o.data [(k : ℤ)]) = some [2, 1, 0, 1, 2, 1, 0] := by
  decide +kernel

/-- Reflecting by the size of the dimension or more, which ONNX defines by going back and
forth, reads outside of the data. -/
theorem C62_reflect_far_false :
    ∃ (data : Mem ℤ) (pads : List ℤ), data.shape = [2] ∧ pads = [0, 3] ∧
      pad data pads .reflect 0 (fun _ => 0) = none :=
  ⟨⟨[2], fun _ => 0⟩, [0, 3], rfl, rfl, by decide +kernel⟩

/-- Any other mode, such as `wrap`, is accepted and reads outside of the data, or the wrong
element: wrapping by one before the data should start with its last element. -/
theorem C62_wrap_false :
    (∃ (data : Mem ℤ) (pads : List ℤ), data.shape = [2] ∧ pads = [0, 1] ∧
      pad data pads .other 0 (fun _ => 0) = none) ∧
    ∃ (data : Mem ℤ) (pads : List ℤ), data.shape = [3] ∧ pads = [1, -1] ∧ data.data [2] ≠ data.data [0] ∧
      (pad data pads .other 0 (fun _ => 9)).map (fun o => o.data [0]) = some (data.data [0]) :=
  ⟨⟨⟨[2], fun _ => 0⟩, [0, 1], rfl, rfl, by decide +kernel⟩,
   ⟨⟨[3], fun i => i.getD 0 0⟩, [1, -1], rfl, rfl, by decide, by decide +kernel⟩⟩

/-! ### C63 -/

theorem reshapeTo_data {m : Mem R} {dims : List ℤ} {o i : Idx} (hi : InShape i m.shape)
    (h : lin dims o = lin m.shape i) : (reshapeTo m dims).data o = m.data i := by
  unfold reshapeTo ofFlat Mem.flat
  simp only
  rw [h, unlin_lin hi]

/-- DepthToSpace with `C * bs * bs` channels: pixel `(i, j)` of the block at `(h, w)` in
channel `c` comes from channel `(i * bs + j) * C + c` in mode DCR and from channel
`(c * bs + i) * bs + j` in mode CRD. -/
theorem C63_depth_to_space (data : Mem R) (B C H W bs : ℤ) (dcr : Bool) (isOne : ℕ → Bool) (junk : Idx → R)
    (hdata : data.shape = [B, C * bs * bs, H, W]) (hB : 0 ≤ B) (hC : 0 ≤ C) (hH : 0 ≤ H) (hW : 0 ≤ W)
    (hbs : 0 < bs)
    (hone : ∀ a < 6, isOne a = true →
      (if dcr then [B, bs, bs, C, H, W] else [B, C, bs, bs, H, W]).getD a 0 = 1) :
    ∃ out, depthToSpace data bs dcr isOne junk = some out ∧ out.shape = [B, C, H * bs, W * bs] ∧
      ∀ b c h w i j, InShape [b, c, h, w] [B, C, H, W] → 0 ≤ i → i < bs → 0 ≤ j → j < bs →
        out.data [b, c, h * bs + i, w * bs + j] =
          data.data [b, if dcr then (i * bs + j) * C + c else (c * bs + i) * bs + j, h, w] := by
  have hdiv : C * bs * bs / (bs * bs) = C := by
    rw [mul_assoc]
    exact Int.mul_ediv_cancel _ (by positivity)
  unfold depthToSpace
  rw [hdata]
  simp only [hdiv]
  have key : ∀ (dims1 : List ℤ) (perm : List ℕ), dims1.length = 6 → perm.Perm (List.range 6) →
      (∀ d ∈ dims1, 0 ≤ d) → (∀ a < 6, isOne a = true → dims1.getD a 0 = 1) →
      (perm.map fun p => dims1.getD p 0) = [B, C, H, bs, W, bs] →
      ∃ out, (transpose (reshapeTo data dims1) isOne perm junk).map
          (fun t => reshapeTo t [B, C, H * bs, W * bs]) = some out ∧ out.shape = [B, C, H * bs, W * bs] ∧
        ∀ b c h w i j x y, InShape x dims1 → InShape y data.shape → lin dims1 x = lin data.shape y →
          (perm.map fun p => x.getD p 0) = [b, c, h, i, w, j] →
          InShape [b, c, h, i, w, j] [B, C, H, bs, W, bs] →
          out.data [b, c, h * bs + i, w * bs + j] = data.data y := by
    intro dims1 perm hl hp hnn hone' hdims
    have hsh : (reshapeTo data dims1).shape = dims1 := rfl
    obtain ⟨t, e, hs, ht, _⟩ := C61_transpose (reshapeTo data dims1) perm isOne junk (by rw [hsh, hl]; exact hp)
      (by rw [hsh, hl]; exact hone') (by rw [hsh]; exact hnn)
    rw [hsh, hdims] at hs
    refine ⟨_, by rw [e]; rfl, rfl, ?_⟩
    intro b c h w i j x y hx hy hxy hpx hin
    rw [reshapeTo_data (i := [b, c, h, i, w, j]) (by rw [hs]; exact hin)]
    · rw [← hpx, ht x hx]
      exact reshapeTo_data hy hxy
    · rw [hs]
      simp [lin, numel]
      ring
  cases dcr with
  | true =>
    simp only [if_true] at hone ⊢
    obtain ⟨out, e, hs, h⟩ := key [B, bs, bs, C, H, W] [0, 3, 4, 1, 5, 2] rfl (by decide)
      (by simp; omega) hone rfl
    refine ⟨out, e, hs, ?_⟩
    intro b c h' w i j hin hi0 hi hj0 hj
    simp only [inShape_cons] at hin
    obtain ⟨hb, hc, hh, hw, _⟩ := hin
    refine h b c h' w i j [b, i, j, c, h', w] _ ?_ ?_ ?_ rfl ?_
    · simp only [inShape_cons]
      exact ⟨hb, ⟨hi0, hi⟩, ⟨hj0, hj⟩, hc, hh, hw, inShape_nil⟩
    · rw [hdata]
      simp only [inShape_cons]
      refine ⟨hb, ⟨by nlinarith [mul_nonneg (mul_nonneg hi0 hbs.le) hC, mul_nonneg hj0 hC], ?_⟩, hh, hw, inShape_nil⟩
      have h1 : i * bs + j + 1 ≤ bs * bs := by nlinarith
      have h2 := mul_le_mul_of_nonneg_right h1 hC
      nlinarith
    · rw [hdata]
      simp [lin, numel]
      ring
    · simp only [inShape_cons]
      exact ⟨hb, hc, hh, ⟨hi0, hi⟩, hw, ⟨hj0, hj⟩, inShape_nil⟩
  | false =>
    simp only [Bool.false_eq_true, if_false] at hone ⊢
    obtain ⟨out, e, hs, h⟩ := key [B, C, bs, bs, H, W] [0, 1, 4, 2, 5, 3] rfl (by decide)
      (by simp; omega) hone rfl
    refine ⟨out, e, hs, ?_⟩
    intro b c h' w i j hin hi0 hi hj0 hj
    simp only [inShape_cons] at hin
    obtain ⟨hb, hc, hh, hw, _⟩ := hin
    refine h b c h' w i j [b, c, i, j, h', w] _ ?_ ?_ ?_ rfl ?_
    · simp only [inShape_cons]
      exact ⟨hb, hc, ⟨hi0, hi⟩, ⟨hj0, hj⟩, hh, hw, inShape_nil⟩
    · rw [hdata]
      simp only [inShape_cons]
      refine ⟨hb, ⟨by nlinarith [mul_nonneg (mul_nonneg hc.1 hbs.le) hbs.le, mul_nonneg hi0 hbs.le], ?_⟩, hh, hw,
        inShape_nil⟩
      have h1 : c * bs + i + 1 ≤ C * bs := by nlinarith
      have h2 := mul_le_mul_of_nonneg_right h1 hbs.le
      nlinarith
    · rw [hdata]
      simp [lin, numel]
      ring
    · simp only [inShape_cons]
      exact ⟨hb, hc, hh, ⟨hi0, hi⟩, hw, ⟨hj0, hj⟩, inShape_nil⟩

example : (depthToSpace (⟨[1, 8, 1, 1], fun i => i.getD 1 0⟩ : Mem ℤ) 2 true (fun _ => false) (fun _ => 9)).map
    (fun o => (o.shape, o.data [0, 1, 1, 0])) = some ([1, 2, 2, 2], 5) ∧
    (depthToSpace (⟨[1, 8, 1, 1], fun i => i.getD 1 0⟩ : Mem ℤ) 2 false (fun _ => false) (fun _ => 9)).map
    (fun o => (o.shape, o.data [0, 1, 1, 0])) = some ([1, 2, 2, 2], 6) := by decide +kernel

/-- SpaceToDepth as lowered: pixel `(i, j)` of the block at `(h, w)` of channel `c` goes to
channel `(c * bs + i) * bs + j`.  ONNX puts it in channel `(i * bs + j) * C + c`, which is
the same for one channel only. -/
theorem C63_space_to_depth_partial (data : Mem R) (B C H W bs : ℤ) (isOne : ℕ → Bool) (junk : Idx → R)
    (hdata : data.shape = [B, C, H * bs, W * bs]) (hB : 0 ≤ B) (hC : 0 ≤ C) (hH : 0 ≤ H) (hW : 0 ≤ W)
    (hbs : 0 < bs) (hone : ∀ a < 6, isOne a = true → [B, C, H, bs, W, bs].getD a 0 = 1) :
    ∃ out, spaceToDepth data bs isOne junk = some out ∧ out.shape = [B, C * (bs * bs), H, W] ∧
      (∀ b c h w i j, InShape [b, c, h, w] [B, C, H, W] → 0 ≤ i → i < bs → 0 ≤ j → j < bs →
        out.data [b, (c * bs + i) * bs + j, h, w] = data.data [b, c, h * bs + i, w * bs + j]) ∧
      (C = 1 → ∀ b c h w i j, InShape [b, c, h, w] [B, C, H, W] → 0 ≤ i → i < bs → 0 ≤ j → j < bs →
        out.data [b, (i * bs + j) * C + c, h, w] = data.data [b, c, h * bs + i, w * bs + j]) := by
  have hdivH : H * bs / bs = H := Int.mul_ediv_cancel _ (by omega)
  have hdivW : W * bs / bs = W := Int.mul_ediv_cancel _ (by omega)
  unfold spaceToDepth
  rw [hdata]
  simp only [hdivH, hdivW]
  have hsh : (reshapeTo data [B, C, H, bs, W, bs]).shape = [B, C, H, bs, W, bs] := rfl
  obtain ⟨t, e, hs, ht, _⟩ := C61_transpose (reshapeTo data [B, C, H, bs, W, bs]) [0, 1, 3, 5, 2, 4] isOne junk
    (by show List.Perm [0, 1, 3, 5, 2, 4] (List.range 6); decide) (by rw [hsh]; exact hone) (by rw [hsh]; simp; omega)
  rw [hsh] at hs
  have hmain : ∀ b c h w i j, InShape [b, c, h, w] [B, C, H, W] → 0 ≤ i → i < bs → 0 ≤ j → j < bs →
      (reshapeTo t [B, C * (bs * bs), H, W]).data [b, (c * bs + i) * bs + j, h, w] =
        data.data [b, c, h * bs + i, w * bs + j] := by
    intro b c h w i j hin hi0 hi hj0 hj
    simp only [inShape_cons] at hin
    obtain ⟨hb, hc, hh, hw, _⟩ := hin
    have hx : InShape [b, c, h, i, w, j] [B, C, H, bs, W, bs] := by
      simp only [inShape_cons]
      exact ⟨hb, hc, hh, ⟨hi0, hi⟩, hw, ⟨hj0, hj⟩, inShape_nil⟩
    rw [reshapeTo_data (i := [b, c, i, j, h, w])]
    · rw [show [b, c, i, j, h, w] = [0, 1, 3, 5, 2, 4].map fun p => [b, c, h, i, w, j].getD p 0 from rfl,
        ht _ (by rw [hsh]; exact hx)]
      refine reshapeTo_data ?_ ?_
      · rw [hdata]
        simp only [inShape_cons]
        exact ⟨hb, hc, ⟨by nlinarith [mul_nonneg hh.1 hbs.le], by nlinarith⟩,
          ⟨by nlinarith [mul_nonneg hw.1 hbs.le], by nlinarith⟩, inShape_nil⟩
      · rw [hdata]
        simp [lin, numel]
        ring
    · rw [hs]
      simp only [List.map_cons, List.map_nil, inShape_cons]
      exact ⟨hb, hc, ⟨hi0, hi⟩, ⟨hj0, hj⟩, hh, hw, inShape_nil⟩
    · rw [hs]
      simp [lin, numel]
      ring
  refine ⟨_, by rw [e]; rfl, rfl, hmain, ?_⟩
  intro h1 b c h w i j hin hi0 hi hj0 hj
  have hc0 : c = 0 := by
    simp only [inShape_cons] at hin
    omega
  have e2 : (i * bs + j) * C + c = (c * bs + i) * bs + j := by rw [h1, hc0]; ring
  rw [e2]
  exact hmain b c h w i j hin hi0 hi hj0 hj

example : (spaceToDepth (⟨[1, 2, 2, 2], fun i => 100 * i.getD 1 0 + 10 * i.getD 2 0 + i.getD 3 0⟩ : Mem ℤ) 2
    (fun _ => false) (fun _ => 9)).map (fun o => (o.shape, o.data [0, 6, 0, 0])) = some ([1, 8, 1, 1], 110) := by
  decide +kernel

/-- With two channels the lowering does not follow the channel order of ONNX, which puts
pixel `(i, j)` of channel `c` in channel `(i * bs + j) * C + c`. -/
theorem C63_space_to_depth_false :
    ∃ (data out : Mem ℤ), data.shape = [1, 2, 2, 2] ∧
      spaceToDepth data 2 (fun _ => false) (fun _ => 9) = some out ∧
      out.data [0, (0 * 2 + 0) * 2 + 1, 0, 0] ≠ data.data [0, 1, 0 * 2 + 0, 0 * 2 + 0] := by
  obtain ⟨out, e, _, h, _⟩ := C63_space_to_depth_partial
    (⟨[1, 2, 2, 2], fun i => 100 * i.getD 1 0 + 10 * i.getD 2 0 + i.getD 3 0⟩ : Mem ℤ) 1 2 1 1 2 (fun _ => false)
    (fun _ => 9) rfl (by omega) (by omega) (by omega) (by omega) (by omega) (by simp)
  refine ⟨_, out, rfl, e, ?_⟩
  have := h 0 0 0 0 0 1 (by decide) (by omega) (by omega) (by omega) (by omega)
  simp at this ⊢
  rw [this]
  omega

/-- DepthToSpace in mode CRD undoes the lowered SpaceToDepth. -/
theorem C63_roundtrip (data : Mem R) (B C H W bs : ℤ) (isOne isOne' : ℕ → Bool) (junk : Idx → R)
    (hdata : data.shape = [B, C, H * bs, W * bs]) (hB : 0 ≤ B) (hC : 0 ≤ C) (hH : 0 ≤ H) (hW : 0 ≤ W)
    (hbs : 0 < bs) (hone : ∀ a < 6, isOne a = true → [B, C, H, bs, W, bs].getD a 0 = 1)
    (hone' : ∀ a < 6, isOne' a = true → [B, C, bs, bs, H, W].getD a 0 = 1) :
    ∃ mid out, spaceToDepth data bs isOne junk = some mid ∧ depthToSpace mid bs false isOne' junk = some out ∧
      out.shape = data.shape ∧ ∀ i, InShape i data.shape → out.data i = data.data i := by
  obtain ⟨mid, e, hs, h, _⟩ := C63_space_to_depth_partial data B C H W bs isOne junk hdata hB hC hH hW hbs hone
  obtain ⟨out, e2, hs2, h2⟩ := C63_depth_to_space mid B C H W bs false isOne' junk (by rw [hs, mul_assoc])
    hB hC hH hW hbs (by simpa using hone')
  refine ⟨mid, out, e, e2, by rw [hs2, hdata], ?_⟩
  intro x hx
  rw [hdata] at hx
  match x, hx with
  | [b, c, y, z], hx =>
    simp only [inShape_cons] at hx
    obtain ⟨hb, hc, hy, hz, _⟩ := hx
    have hy1 := Int.emod_nonneg y (by omega : bs ≠ 0)
    have hy2 := Int.emod_lt_of_pos y hbs
    have hz1 := Int.emod_nonneg z (by omega : bs ≠ 0)
    have hz2 := Int.emod_lt_of_pos z hbs
    have hin : InShape [b, c, y / bs, z / bs] [B, C, H, W] := by
      simp only [inShape_cons]
      exact ⟨hb, hc, ⟨Int.ediv_nonneg hy.1 hbs.le, Int.ediv_lt_of_lt_mul hbs hy.2⟩,
        ⟨Int.ediv_nonneg hz.1 hbs.le, Int.ediv_lt_of_lt_mul hbs hz.2⟩, inShape_nil⟩
    have h3 := h2 b c _ _ _ _ hin hy1 hy2 hz1 hz2
    have h4 := h b c _ _ _ _ hin hy1 hy2 hz1 hz2
    simp only [Bool.false_eq_true, if_false] at h3
    rw [h4, Int.ediv_mul_add_emod, Int.ediv_mul_add_emod] at h3
    exact h3

example : ∃ data : Mem ℤ, data.shape = [1, 2, 1 * 2, 3 * 2] := ⟨⟨[1, 2, 2, 6], fun _ => 0⟩, rfl⟩

end Verif.Props
