import Verif.Lower.ConcatFuseLemmas
import Verif.Props.Move

/-!
C121: the fused operator ConcatShapeTranspose returns the shape and the transposition of the concatenation.
-/

namespace Verif.Props

open Verif.Lower

variable {R : Type*}

/-- A start or an end that needs no clamping, and the position that it stands for. -/
def AxisAt (x : ℤ) (rank : ℕ) (p : ℤ) : Prop :=
  (0 ≤ x ∧ x ≤ rank ∧ p = x) ∨ (-rank ≤ x ∧ x < 0 ∧ p = x + rank)

theorem clampAxis_at {x p : ℤ} {rank : ℕ} (h : AxisAt x rank p) : clampAxis x rank = p ∧ wrapAxis x rank = p ∧ 0 ≤ p ∧ p ≤ rank := by
  unfold clampAxis wrapAxis
  simp only
  rcases h with ⟨h1, h2, rfl⟩ | ⟨h1, h2, rfl⟩
  · rw [if_neg (show ¬ p < 0 by omega), if_neg (show ¬ p < 0 by omega), if_neg (show ¬ p > rank by omega)]
    omega
  · rw [if_pos h2, if_neg (show ¬ x + rank < 0 by omega), if_neg (show ¬ x + rank > rank by omega)]
    omega

/-- The first result is the part from `s` to `e` of the shape of the concatenation; the second has, for the element at any index of
any input, this element at the index that concatenation and transposition move it to, and no other elements. -/
theorem C121_fused_partial (da dc : List ℤ) (inputs : List (Mem R)) (perm : List ℕ) (start : ℤ) (stop : Option ℤ) (s e : ℤ)
    (junk1 : Idx → ℤ) (junk2 : Idx → R) (hne : inputs ≠ [])
    (hin : ∀ m ∈ inputs, ∃ d, 0 ≤ d ∧ m.shape = da ++ [d] ++ dc)
    (hp : perm.Perm (List.range (da.length + 1 + dc.length)))
    (hs : AxisAt start (da.length + 1 + dc.length) s)
    (he : (stop = none ∧ e = da.length + 1 + dc.length) ∨ ∃ x, stop = some x ∧ AxisAt x (da.length + 1 + dc.length) e)
    (hse : s ≤ e) :
    ∃ sh t, concatShapeTranspose inputs da.length start stop perm junk1 junk2 = some (sh, t) ∧
      let dims := da ++ [(inputs.map fun m => m.shape.getD da.length 0).sum] ++ dc
      sh.shape = [e - s] ∧ (∀ k : ℕ, (k : ℤ) < e - s → sh.data [(k : ℤ)] = dims.getD (s + k).toNat 0) ∧
      t.shape = (perm.map fun p => dims.getD p 0) ∧
      (∀ (k : ℕ) (m : Mem R), inputs[k]? = some m → ∀ a x c, InShape (a ++ [x] ++ c) m.shape → a.length = da.length →
        t.data (perm.map fun p => (a ++ [((inputs.take k).map fun m => m.shape.getD da.length 0).sum + x] ++ c).getD p 0) =
          m.data (a ++ [x] ++ c)) ∧
      ∀ o, InShape o t.shape → ∃ (k : ℕ) (m : Mem R) (a : Idx) (x : ℤ) (c : Idx), inputs[k]? = some m ∧
        InShape (a ++ [x] ++ c) m.shape ∧ a.length = da.length ∧
        o = perm.map fun p => (a ++ [((inputs.take k).map fun m => m.shape.getD da.length 0).sum + x] ++ c).getD p 0 := by
  have hdims : concatDims inputs da.length = da ++ [(inputs.map fun m => m.shape.getD da.length 0).sum] ++ dc := by
    cases inputs with
    | nil => exact absurd rfl hne
    | cons m rest =>
      obtain ⟨d, _, hm⟩ := hin m (by simp)
      unfold concatDims
      simp only
      rw [show m.shape.set da.length _ = _ from congrArg (fun l => List.set l da.length _) hm,
        List.append_assoc, List.set_append_right _ _ (le_refl _)]
      simp
  generalize hD : da ++ [(inputs.map fun m => m.shape.getD da.length 0).sum] ++ dc = dims at hdims
  have hlen : dims.length = da.length + 1 + dc.length := by rw [← hD]; simp; omega
  -- The shape.
  obtain ⟨s1, s2, s3, s4⟩ := clampAxis_at hs
  have he' : clampAxis (stop.getD (dims.length : ℤ)) dims.length = e ∧ wrapAxis (stop.getD (dims.length : ℤ)) dims.length = e ∧
      0 ≤ e ∧ e ≤ (da.length + 1 + dc.length : ℕ) := by
    rcases he with ⟨rfl, rfl⟩ | ⟨x, rfl, hx⟩
    · simp only [Option.getD_none]
      rw [hlen]
      exact clampAxis_at (x := ((da.length + 1 + dc.length : ℕ) : ℤ)) (.inl ⟨by omega, le_refl _, by push_cast; rfl⟩)
    · simp only [Option.getD_some]
      rw [hlen]
      exact clampAxis_at hx
  obtain ⟨e1, e2, e3, e4⟩ := he'
  obtain ⟨sh, a1, a2, _, a4⟩ := shapeStores_spec dims s (e - s) s3 (by rw [hlen]; omega) (e - s).toNat 0 ⟨[e - s], junk1⟩ rfl
    (by push_cast; omega)
  have hsh : fusedShape dims start stop junk1 = some sh := by
    unfold fusedShape
    simp only
    rw [e1, e2]
    rw [hlen, s1, s2, if_pos hse]
    exact a1
  -- The transposition.
  obtain ⟨c, c1, c2, c3⟩ := C61_concat da dc inputs (fun i => junk2 (fusedWrite perm i)) hne hin
  rw [hD] at c2
  unfold concat at c1
  simp only [hdims] at c1
  obtain ⟨t, t1, t2, t3⟩ := fusedLoop_sim (perm := perm) inputs 0 0 ⟨dims, fun i => junk2 (fusedWrite perm i)⟩
    ⟨transposeDims dims perm, junk2⟩ c (by simp only; rw [hlen]; exact hp) ⟨rfl, fun _ _ => rfl⟩ c1
  refine ⟨sh, t, ?_, a2, ?_, ?_, ?_, ?_⟩
  · unfold concatShapeTranspose
    simp only [hdims]
    rw [hsh, Option.bind_some, t1, Option.bind_some]
  · intro k hk
    exact a4 k (Nat.zero_le _) (by omega)
  · rw [t2.1, c2]; rfl
  · intro k m hk a x c' hx hl
    rw [← c3 k m hk a x c' hx hl]
    refine t2.2 _ ?_
    rw [c2, ← hD]
    obtain ⟨d, hd0, hm⟩ := hin m (List.mem_of_getElem? hk)
    rw [hm, List.append_assoc, List.append_assoc, inShape_append hl, List.singleton_append, List.singleton_append, inShape_cons] at hx
    rw [List.append_assoc, List.append_assoc, inShape_append hl, List.singleton_append, List.singleton_append, inShape_cons]
    refine ⟨hx.1, ?_, hx.2.2⟩
    have hnn : ∀ l : List (Mem R), (∀ m ∈ l, m ∈ inputs) → 0 ≤ (l.map fun m => m.shape.getD da.length 0).sum := by
      intro l hl'
      apply List.sum_nonneg
      intro y hy
      obtain ⟨m', hm', rfl⟩ := List.mem_map.1 hy
      obtain ⟨d', hd', hs'⟩ := hin m' (hl' m' hm')
      rw [hs', getD_mid]; exact hd'
    have hk' : k < inputs.length := (List.getElem?_eq_some_iff.1 hk).1
    have hsplit : inputs = inputs.take k ++ m :: inputs.drop (k + 1) := by
      have h1 : inputs[k] = m := (List.getElem?_eq_some_iff.1 hk).2
      rw [← h1, List.getElem_cons_drop, List.take_append_drop]
    have hsum : (inputs.map fun m => m.shape.getD da.length 0).sum =
        ((inputs.take k).map fun m => m.shape.getD da.length 0).sum + (d + ((inputs.drop (k + 1)).map fun m => m.shape.getD da.length 0).sum) := by
      conv_lhs => rw [hsplit]
      rw [List.map_append, List.sum_append, List.map_cons, List.sum_cons, hm, getD_mid]
    have b1 := hnn (inputs.take k) fun m hm => List.mem_of_mem_take hm
    have b2 := hnn (inputs.drop (k + 1)) fun m hm => List.mem_of_mem_drop hm
    rw [hsum]
    omega
  · intro o ho
    rw [t2.1, c2] at ho
    obtain ⟨i1, i2⟩ := permuted_surj (by rw [hlen]; exact hp) ho
    generalize hi : (List.range dims.length).map (fun k => o.getD (perm.idxOf k) 0) = i at i1 i2
    have hil : i.length = da.length + (1 + dc.length) := by rw [i1.length, hlen]; omega
    rw [← hD] at i1
    have hsplit : i = i.take da.length ++ [i.getD da.length 0] ++ i.drop (da.length + 1) := by
      have h1 : da.length < i.length := by omega
      rw [List.getD_eq_getElem?_getD, List.getElem?_eq_getElem h1, Option.getD_some, List.append_assoc, List.singleton_append,
        List.getElem_cons_drop, List.take_append_drop]
    have hal : (i.take da.length).length = da.length := by rw [List.length_take]; omega
    rw [hsplit, List.append_assoc, List.append_assoc, inShape_append hal, List.singleton_append, List.singleton_append, inShape_cons] at i1
    obtain ⟨k, sz, k1, k2, k3⟩ := cover (inputs.map fun m => m.shape.getD da.length 0) (by
      intro y hy
      obtain ⟨m', hm', rfl⟩ := List.mem_map.1 hy
      obtain ⟨d', hd', hs'⟩ := hin m' hm'
      rw [hs', getD_mid]; exact hd') _ i1.2.1.1 i1.2.1.2
    rw [List.getElem?_map] at k1
    obtain ⟨m, hm, hmz⟩ := Option.map_eq_some_iff.1 k1
    rw [← List.map_take] at k2 k3
    refine ⟨k, m, i.take da.length,
      i.getD da.length 0 - ((inputs.take k).map fun m => m.shape.getD da.length 0).sum, i.drop (da.length + 1), hm, ?_, hal, ?_⟩
    · obtain ⟨d, hd, hms⟩ := hin m (List.mem_of_getElem? hm)
      rw [hms, getD_mid] at hmz
      rw [hms, List.append_assoc, List.append_assoc, inShape_append hal, List.singleton_append, List.singleton_append, inShape_cons]
      exact ⟨i1.1, ⟨k2, by omega⟩, i1.2.2⟩
    · rw [show ((inputs.take k).map fun m => m.shape.getD da.length 0).sum +
        (i.getD da.length 0 - ((inputs.take k).map fun m => m.shape.getD da.length 0).sum) = i.getD da.length 0 by ring, ← hsplit]
      exact i2.symm

theorem fuseScan_bad : ∀ (us : List ConcatUser) (sh tr : Bool), (fuseScan us (sh, tr, true)).2.2 = true
  | [], _, _ => rfl
  | u :: us, sh, tr => by
    rw [fuseScan]
    split
    · exact fuseScan_bad us _ _
    · split
      · exact fuseScan_bad us _ _
      · exact fuseScan_bad us _ _

/-- A Concat is fused exactly when it has two uses, one in a Shape and one in a Transpose, so that no use is left without it. -/
theorem C121_matched (users : List ConcatUser) : fuseMatched users = true ↔ users.Perm [.shape, .transpose] := by
  have bad : ∀ us sh tr, ((fuseScan us (sh, tr, true)).1 && (fuseScan us (sh, tr, true)).2.1 && !(fuseScan us (sh, tr, true)).2.2) = false := by
    intro us sh tr; rw [fuseScan_bad]; simp
  have full : ∀ us, ((fuseScan us (true, true, false)).1 && (fuseScan us (true, true, false)).2.1 &&
      !(fuseScan us (true, true, false)).2.2) = true ↔ us = [] := by
    intro us
    cases us with
    | nil => simp [fuseScan]
    | cons u us =>
      have : fuseScan (u :: us) (true, true, false) = fuseScan us (true, true, true) := by
        rw [fuseScan, if_neg (by simp), if_neg (by simp)]
      rw [this, bad]; simp
  have fm : ∀ us, fuseMatched us = ((fuseScan us (false, false, false)).1 && (fuseScan us (false, false, false)).2.1 &&
      !(fuseScan us (false, false, false)).2.2) := fun _ => rfl
  rw [fm]
  have swap : users.Perm [.shape, .transpose] ↔ users = [.shape, .transpose] ∨ users = [.transpose, .shape] := by
    constructor
    · intro h
      have hl := h.length_eq
      match users, hl, h with
      | [a, b], _, h =>
        have ha : a ∈ [ConcatUser.shape, .transpose] := h.mem_iff.1 (by simp)
        have hn : [a, b].Nodup := h.nodup_iff.2 (by decide)
        have hb : b ∈ [ConcatUser.shape, .transpose] := h.mem_iff.1 (by simp)
        revert ha hb hn
        cases a <;> cases b <;> decide
    · rintro (rfl | rfl)
      · exact List.Perm.refl _
      · exact List.Perm.swap _ _ _
  rw [swap]
  match users with
  | [] => simp [fuseScan]
  | .other :: us =>
    rw [fuseScan, if_neg (by simp), if_neg (by simp), bad]; simp
  | [.shape] => simp [fuseScan]
  | [.transpose] => simp [fuseScan]
  | .shape :: .transpose :: us =>
    rw [fuseScan, if_pos (by simp), fuseScan, if_neg (by simp), if_pos (by simp), full]; simp
  | .transpose :: .shape :: us =>
    rw [fuseScan, if_neg (by simp), if_pos (by simp), fuseScan, if_pos (by simp), full]; simp
  | .shape :: .shape :: us =>
    rw [fuseScan, if_pos (by simp), fuseScan, if_neg (by simp), if_neg (by simp), bad]; simp
  | .transpose :: .transpose :: us =>
    rw [fuseScan, if_neg (by simp), if_pos (by simp), fuseScan, if_neg (by simp), if_neg (by simp), bad]; simp
  | .shape :: .other :: us =>
    rw [fuseScan, if_pos (by simp), fuseScan, if_neg (by simp), if_neg (by simp), bad]; simp
  | .transpose :: .other :: us =>
    rw [fuseScan, if_neg (by simp), if_pos (by simp), fuseScan, if_neg (by simp), if_neg (by simp), bad]; simp

/-- ONNX clamps the start and the end of Shape. The fused operator is computed for them as they are: with an end greater than the
rank, as in Shape with an end of 10, the compiler reads past the dimensions. -/
theorem C121_end_false (inputs : List (Mem R)) (axis : ℕ) (perm : List ℕ) (junk1 : Idx → ℤ) (junk2 : Idx → R) (x : ℤ)
    (hx : ((concatDims inputs axis).length : ℤ) < x) :
    concatShapeTranspose inputs axis 0 (some x) perm junk1 junk2 = none := by
  have key : ∀ (dims : List ℤ) (n k : ℕ) (o : Mem ℤ), k ≤ dims.length → dims.length < k + n →
      shapeStores dims 0 n k o = none := by
    intro dims n
    induction n with
    | zero => intro k o h1 h2; omega
    | succ n ih =>
      intro k o h1 h2
      rw [shapeStores, if_pos (by omega)]
      by_cases hk : k = dims.length
      · rw [List.getElem?_eq_none (by omega)]; rfl
      · rw [List.getElem?_eq_getElem (show ((0 : ℤ) + (k : ℤ)).toNat < dims.length by omega), Option.bind_some]
        cases o.store [(k : ℤ)] dims[((0 : ℤ) + (k : ℤ)).toNat] with
        | none => rfl
        | some o' =>
          rw [Option.bind_some]
          exact ih (k + 1) o' (by omega) (by omega)
  have h : fusedShape (concatDims inputs axis) 0 (some x) junk1 = none := by
    unfold fusedShape
    simp only
    split
    · apply key _ _ _ _ (Nat.zero_le _)
      simp only [wrapAxis, Option.getD_some]
      rw [if_neg (by omega), if_neg (by omega)]
      omega
    · rfl
  unfold concatShapeTranspose
  simp only [h]
  rfl

/-- Two inputs, joined along their second dimension and transposed; the last dimension is asked for. -/
example : (∀ m ∈ ([⟨[2, 1], fun i => i.getD 0 0⟩, ⟨[2, 3], fun i => 10 * i.getD 0 0 + i.getD 1 0⟩] : List (Mem ℤ)),
      ∃ d, 0 ≤ d ∧ m.shape = [2] ++ [d] ++ []) ∧
    [1, 0].Perm (List.range 2) ∧ AxisAt (-1) 2 1 ∧
    (concatShapeTranspose ([⟨[2, 1], fun i => i.getD 0 0⟩, ⟨[2, 3], fun i => 10 * i.getD 0 0 + i.getD 1 0⟩] : List (Mem ℤ)) 1 (-1)
      none [1, 0] (fun _ => 0) (fun _ => 0)).map (fun r => (r.1.shape, r.1.data [0], r.2.shape, r.2.data [3, 1], r.2.data [0, 1])) =
      some ([1], 4, [4, 2], 12, 1) := by
  refine ⟨by simp, by decide +kernel, .inr (by omega), by decide +kernel⟩

end Verif.Props
