import Verif.Lower.GatherModel

/-!
Lemmas about the models of the gather and scatter lowerings.
-/

namespace Verif.Lower

open Verif.Krnl (Buf)

variable {R : Type*}

/-- ONNX convention: negative indices count from the end. -/
def wrapIdx (d i : ℤ) : ℤ := if i < 0 then i + d else i

theorem wrapIdx_range {d i : ℤ} (h : -d ≤ i ∧ i < d) : 0 ≤ wrapIdx d i ∧ wrapIdx d i < d := by
  unfold wrapIdx; split <;> omega

theorem gatherIndex_wrap {d i : ℤ} {mayNeg : Bool} (safe : Bool) (h : -d ≤ i ∧ i < d)
    (hn : mayNeg = true ∨ 0 ≤ i) : gatherIndex mayNeg safe d i = wrapIdx d i := by
  have hw := wrapIdx_range h
  have e : (if mayNeg then (if i < 0 then i + d else i) else i) = wrapIdx d i := by
    unfold wrapIdx
    rcases hn with rfl | hn
    · simp
    · have : ¬ i < 0 := by omega
      simp [this]
  unfold gatherIndex
  simp only [e]
  cases safe
  · simp
  · simp only [if_true]
    rw [if_neg (show ¬ wrapIdx d i < 0 by omega), if_neg (show ¬ wrapIdx d i ≥ d by omega)]

theorem gatherIndex_safe {d : ℤ} (i : ℤ) (mayNeg : Bool) (h : 0 < d) :
    0 ≤ gatherIndex mayNeg true d i ∧ gatherIndex mayNeg true d i < d := by
  unfold gatherIndex
  simp only [if_true]
  generalize (if mayNeg then (if i < 0 then i + d else i) else i) = j
  split <;> split <;> omega

theorem normAxis_eq {n k : ℕ} {axis : ℤ} (h : axis = k ∨ axis = (k : ℤ) - n) (hk : k < n) :
    normAxis n axis = k := by
  unfold normAxis
  rcases h with rfl | rfl
  · rw [if_neg (by omega)]; omega
  · rw [if_pos (by omega)]; omega

theorem getD_mid {α : Type*} (a : List α) (x : α) (c : List α) (z : α) :
    (a ++ [x] ++ c).getD a.length z = x := by
  rw [List.getD_eq_getElem?_getD, List.append_assoc, List.getElem?_append_right (le_refl _)]
  simp

theorem getD_left (a c : List ℤ) {i : ℕ} (h : i < a.length) (z : ℤ) : (a ++ c).getD i z = a.getD i z := by
  rw [List.getD_eq_getElem?_getD, List.getD_eq_getElem?_getD, List.getElem?_append_left h]

theorem getD_right (a c : List ℤ) {i : ℕ} (h : a.length ≤ i) (z : ℤ) :
    (a ++ c).getD i z = c.getD (i - a.length) z := by
  rw [List.getD_eq_getElem?_getD, List.getD_eq_getElem?_getD, List.getElem?_append_right h]

theorem map_getD_range (a : List ℤ) : ((List.range a.length).map fun i => a.getD i 0) = a := by
  have := getD_range_mid [] a [] 0 a.length rfl rfl
  simpa using this

theorem range_mid {α : Type*} (g : ℕ → α) (p q : ℕ) :
    (List.range (p + 1 + q)).map g =
      (List.range p).map g ++ [g p] ++ (List.range q).map fun k => g (p + 1 + k) := by
  rw [List.range_add, List.map_append, List.range_succ, List.map_append, List.map_map]
  rfl

theorem range_mid_flatMap {α : Type*} (g : ℕ → List α) (p q : ℕ) :
    (List.range (p + 1 + q)).flatMap g =
      (List.range p).flatMap g ++ g p ++ (List.range q).flatMap fun k => g (p + 1 + k) := by
  rw [List.range_add, List.flatMap_append, List.range_succ, List.flatMap_append, List.flatMap_map]
  simp

theorem flatMap_single {α β : Type*} (L : List α) (g : α → β) : (L.flatMap fun i => [g i]) = L.map g := by
  induction L with
  | nil => rfl
  | cons a L ih => rw [List.flatMap_cons, ih]; rfl

theorem gatherShape_eq (da dc ind : List ℤ) (d : ℤ) :
    gatherShape (da ++ [d] ++ dc) ind da.length = da ++ ind ++ dc := by
  unfold gatherShape
  have hl : (da ++ [d] ++ dc).length = da.length + 1 + dc.length := by simp; omega
  rw [hl, range_mid_flatMap]
  simp only [if_true]
  congr 1
  · congr 1
    have : ∀ i ∈ List.range da.length, (if i = da.length then ind else [(da ++ [d] ++ dc).getD i 0]) =
        [da.getD i 0] := by
      intro i hi
      have hi := List.mem_range.1 hi
      rw [if_neg (by omega), List.append_assoc, getD_left _ _ hi]
    rw [List.flatMap_congr this, flatMap_single, map_getD_range]
  · have : ∀ i ∈ List.range dc.length, (if da.length + 1 + i = da.length then ind
        else [(da ++ [d] ++ dc).getD (da.length + 1 + i) 0]) = [dc.getD i 0] := by
      intro i hi
      rw [if_neg (by omega), getD_right _ _ (by simp)]
      congr 2
      simp
    rw [List.flatMap_congr this, flatMap_single, map_getD_range]

theorem gatherAccess_eq (a j c : Idx) (n : ℕ) (index : ℤ) (hn : n = a.length + 1 + c.length) :
    gatherAccess n j.length a.length index (a ++ j ++ c) = a ++ [index] ++ c := by
  unfold gatherAccess
  simp only
  congr 1
  · congr 1
    have := getD_range_mid [] a (j ++ c) 0 a.length rfl rfl
    simpa using this
  · have h := getD_range_mid (a ++ j) c [] (a.length + j.length) c.length (by simp) rfl
    rw [List.append_nil] at h
    rw [show n - (a.length + 1) = c.length by omega]
    refine Eq.trans (List.map_congr_left fun k hk => ?_) h
    congr 1
    omega

theorem gather_index {da dc : List ℤ} {d : ℤ} {data : Mem R} {ind : Mem ℤ} (hdata : data.shape = da ++ [d] ++ dc)
    {a j c : Idx} (ha : InShape a da) (hj : InShape j ind.shape) (hc : InShape c dc)
    {mayNeg safe : Bool} (hr : 0 ≤ gatherIndex mayNeg safe d (ind.data j) ∧
      gatherIndex mayNeg safe d (ind.data j) < d) :
    ((ind.load ((List.range ind.shape.length).map fun k => (a ++ j ++ c).getD (da.length + k) 0)).bind
      fun idx => data.load (gatherAccess data.shape.length ind.shape.length da.length
        (gatherIndex mayNeg safe (data.shape.getD da.length 0) idx) (a ++ j ++ c))) =
    some (data.data (a ++ [gatherIndex mayNeg safe d (ind.data j)] ++ c)) := by
  rw [getD_range_mid a j c da.length ind.shape.length ha.length hj.length]
  have e : ind.load j = some (ind.data j) := by unfold Mem.load; rw [if_pos hj]
  rw [e, Option.bind_some, hdata, getD_mid]
  rw [← hj.length, ← ha.length, gatherAccess_eq _ _ _ _ _ (by
    simp only [List.length_append, List.length_cons, List.length_nil, ha.length, hc.length])]
  unfold Mem.load
  rw [if_pos]
  rw [hdata]
  exact inShape_app (inShape_app ha (inShape_one hr)) hc

theorem inShape_split3 {da db dc : List ℤ} {o : Idx} (h : InShape o (da ++ db ++ dc)) :
    ∃ a b c, o = a ++ b ++ c ∧ InShape a da ∧ InShape b db ∧ InShape c dc := by
  obtain ⟨ab, c, rfl, h1, hc⟩ := inShape_split' h
  obtain ⟨a, b, rfl, ha, hb⟩ := inShape_split' h1
  exact ⟨a, b, c, rfl, ha, hb, hc⟩

theorem gather_spec {da dc : List ℤ} {d : ℤ} {data : Mem R} {ind : Mem ℤ} {axis : ℤ} {mayNeg safe : Bool}
    (junk : Idx → R) (hdata : data.shape = da ++ [d] ++ dc)
    (hax : axis = da.length ∨ axis = (da.length : ℤ) - data.shape.length)
    (hr : ∀ j, InShape j ind.shape → 0 ≤ gatherIndex mayNeg safe d (ind.data j) ∧
      gatherIndex mayNeg safe d (ind.data j) < d) :
    ∃ out, gather data ind axis mayNeg safe junk = some out ∧ out.shape = da ++ ind.shape ++ dc ∧
      ∀ a j c, InShape a da → InShape j ind.shape → InShape c dc →
        out.data (a ++ j ++ c) = data.data (a ++ [gatherIndex mayNeg safe d (ind.data j)] ++ c) := by
  have hn : normAxis data.shape.length axis = da.length :=
    normAxis_eq hax (by rw [hdata]; simp)
  unfold gather
  simp only [hn]
  have hs : gatherShape data.shape ind.shape da.length = da ++ ind.shape ++ dc := by
    rw [hdata, gatherShape_eq]
  rw [hs]
  obtain ⟨o, e, h1, h2⟩ := fill_spec ⟨da ++ ind.shape ++ dc, junk⟩
    (fun o => (ind.load ((List.range ind.shape.length).map fun j => o.getD (da.length + j) 0)).bind fun idx =>
      data.load (gatherAccess data.shape.length ind.shape.length da.length
        (gatherIndex mayNeg safe (data.shape.getD da.length 0) idx) o))
    (fun o => data.data (o.take da.length ++ [gatherIndex mayNeg safe d
      (ind.data ((o.drop da.length).take ind.shape.length))] ++ o.drop (da.length + ind.shape.length)))
    (by
      intro o ho
      obtain ⟨a, j, c, rfl, ha, hj, hc⟩ := inShape_split3 ho
      rw [gather_index hdata ha hj hc (hr j hj)]
      congr 2
      rw [← ha.length, ← hj.length]
      simp [List.append_assoc])
  refine ⟨o, e, h1, ?_⟩
  intro a j c ha hj hc
  rw [h2 _ (inShape_app (inShape_app ha hj) hc), ← ha.length, ← hj.length]
  simp [List.append_assoc]

theorem inShape_le {a ia da : List ℤ} (h : InShape a ia) (hl : List.Forall₂ (· ≤ ·) ia da) : InShape a da := by
  induction hl generalizing a with
  | nil => exact h
  | cons h1 _ ih =>
    cases a with
    | nil => cases h
    | cons x xs =>
      obtain ⟨hx, hxs⟩ := inShape_cons.1 h
      exact inShape_cons.2 ⟨⟨hx.1, lt_of_lt_of_le hx.2 h1⟩, ih hxs⟩

/-- The access obtained by replacing the coordinate of the axis. -/
theorem replace_axis (a c : Idx) (j v : ℤ) (n p : ℕ) (hp : p = a.length) (hn : n = a.length + 1 + c.length) :
    ((List.range n).map fun i => if i = p then v else (a ++ [j] ++ c).getD i 0) = a ++ [v] ++ c := by
  subst hp hn
  rw [range_mid]
  simp only [if_true]
  congr 1
  · congr 1
    have : ∀ i ∈ List.range a.length, (if i = a.length then v else (a ++ [j] ++ c).getD i 0) = a.getD i 0 := by
      intro i hi
      have hi := List.mem_range.1 hi
      rw [if_neg (by omega), List.append_assoc, getD_left _ _ hi]
    rw [List.map_congr_left this, map_getD_range]
  · have : ∀ i ∈ List.range c.length, (if a.length + 1 + i = a.length then v
        else (a ++ [j] ++ c).getD (a.length + 1 + i) 0) = c.getD i 0 := by
      intro i hi
      rw [if_neg (by omega), getD_right _ _ (by simp)]
      congr 1
      simp
    rw [List.map_congr_left this, map_getD_range]

theorem gatherElements_spec {da dc ia ic : List ℤ} {d m : ℤ} {data : Mem R} {ind : Mem ℤ} {axis : ℤ}
    {mayNeg safe : Bool} (junk : Idx → R) (hdata : data.shape = da ++ [d] ++ dc)
    (hind : ind.shape = ia ++ [m] ++ ic) (hla : List.Forall₂ (· ≤ ·) ia da) (hlc : List.Forall₂ (· ≤ ·) ic dc)
    (hax : axis = da.length ∨ axis = (da.length : ℤ) - data.shape.length)
    (hr : ∀ j, InShape j ind.shape → 0 ≤ gatherIndex mayNeg safe d (ind.data j) ∧
      gatherIndex mayNeg safe d (ind.data j) < d) :
    ∃ out, gatherElements data ind axis mayNeg safe junk = some out ∧ out.shape = ind.shape ∧
      ∀ a j c, InShape (a ++ [j] ++ c) ind.shape → a.length = da.length →
        out.data (a ++ [j] ++ c) =
          data.data (a ++ [gatherIndex mayNeg safe d (ind.data (a ++ [j] ++ c))] ++ c) := by
  have hn : normAxis data.shape.length axis = da.length :=
    normAxis_eq hax (by rw [hdata]; simp)
  unfold gatherElements
  simp only [hn]
  have key : ∀ a j c, InShape (a ++ [j] ++ c) ind.shape → a.length = da.length →
      ((ind.load (a ++ [j] ++ c)).bind fun idx =>
        data.load ((List.range data.shape.length).map fun i =>
          if i = da.length then gatherIndex mayNeg safe (data.shape.getD da.length 0) idx
          else (a ++ [j] ++ c).getD i 0)) =
      some (data.data (a ++ [gatherIndex mayNeg safe d (ind.data (a ++ [j] ++ c))] ++ c)) := by
    intro a j c h hal
    have e : ind.load (a ++ [j] ++ c) = some (ind.data (a ++ [j] ++ c)) := by
      unfold Mem.load; rw [if_pos h]
    have hial := hla.length_eq
    have h' := h
    rw [hind, inShape_append (by simp; omega), inShape_append (by omega)] at h'
    obtain ⟨⟨ha, hj⟩, hc⟩ := h'
    rw [e, Option.bind_some, hdata, getD_mid]
    rw [replace_axis a c j _ _ _ hal.symm (by
      have := hc.length; have := hlc.length_eq; simp; omega)]
    unfold Mem.load
    rw [if_pos]
    rw [hdata]
    exact inShape_app (inShape_app (inShape_le ha hla) (inShape_one (hr _ h))) (inShape_le hc hlc)
  obtain ⟨o, e, h1, h2⟩ := fill_spec ⟨ind.shape, junk⟩
    (fun o => (ind.load o).bind fun idx =>
        data.load ((List.range data.shape.length).map fun i =>
          if i = da.length then gatherIndex mayNeg safe (data.shape.getD da.length 0) idx
          else o.getD i 0))
    (fun o => data.data (o.take da.length ++ [gatherIndex mayNeg safe d (ind.data o)] ++
      o.drop (da.length + 1)))
    (by
      intro o ho
      simp only at ho
      have ho' := ho
      rw [hind] at ho'
      obtain ⟨a, j, c, rfl, ha, hj, hc⟩ := inShape_split3 ho'
      have hl := hj.length
      obtain ⟨j, rfl⟩ : ∃ x, j = [x] := List.length_eq_one_iff.1 hl
      have hal : a.length = da.length := by rw [ha.length]; exact hla.length_eq
      rw [key a j c ho hal]
      congr 2
      rw [← hal]
      simp [List.append_assoc])
  refine ⟨o, e, h1, ?_⟩
  intro a j c h hal
  rw [h2 _ h, ← hal]
  simp [List.append_assoc]

/-! ### GatherND -/

theorem loadReinterp_eq {α : Type*} {dims : List ℤ} {m : Mem α} {i j : Idx} (hi : InShape i dims)
    (hj : InShape j m.shape) (h : lin dims i = lin m.shape j) :
    loadReinterp dims m i = some (m.data j) := by
  have hb := lin_bounds hj
  unfold loadReinterp reinterp ofFlat Mem.flat
  rw [if_pos ⟨hi, by omega, by omega⟩]
  simp only
  rw [h, unlin_lin hj]

theorem idxs_one (m : ℤ) : idxs [m] = (upto m).map fun x => [x] := by
  simp only [idxs, List.map_cons, List.map_nil]
  exact flatMap_single _ _

theorem idxs_two {B I : List ℤ} (hB : ∀ d ∈ B, 0 ≤ d) (hI : ∀ d ∈ I, 0 ≤ d) :
    idxs [numel B, numel I] =
      (idxs B).flatMap fun b => (idxs I).map fun i => [lin B b, lin I i] := by
  rw [idxs, idxs_one, ← idxs_lin hB, ← idxs_lin hI, List.flatMap_map]
  simp only [List.map_map]
  rfl

theorem iterate_push (dims : List ℤ) (load : Idx → Option R) (v : Idx → R)
    (h : ∀ i, InShape i dims → load i = some (v i)) (st : Buf R × ℤ) :
    iterate dims (fun i st => (load i).bind fun x => push st x) st = ((idxs dims).map v).foldlM push st := by
  unfold iterate
  have := push_flatMap (fun i => [v i]) (fun st i => (load i).bind fun x => push st x) (idxs dims) st
    (by
      intro i hi st
      simp only [h i (mem_idxs.1 hi), Option.bind_some, List.foldlM_cons, List.foldlM_nil]
      cases push st (v i) <;> rfl)
  rw [this, flatMap_single]

/-- The tuple of indices. -/
def tupleAt (ind : Mem ℤ) (pre : Idx) (L : ℕ) : Idx :=
  (List.range L).map fun (k : ℕ) => ind.data (pre ++ [(k : ℤ)])

theorem mapM_some {α β : Type*} (f : α → Option β) (g : α → β) : ∀ (L : List α),
    (∀ a ∈ L, f a = some (g a)) → L.mapM f = some (L.map g)
  | [], _ => rfl
  | a :: L, h => by
    rw [List.mapM_cons, h a (by simp), mapM_some f g L fun b hb => h b (by simp [hb])]
    rfl

theorem gatherND_spec {B I X Y : List ℤ} {data : Mem R} {ind : Mem ℤ} (junk : ℤ → R)
    (hdata : data.shape = B ++ X ++ Y) (hind : ind.shape = B ++ I ++ [(X.length : ℤ)])
    (hX : 0 < X.length)
    (hp : (∀ d ∈ B, 0 ≤ d) ∧ (∀ d ∈ I, 0 ≤ d) ∧ ∀ d ∈ Y, 0 ≤ d)
    (hr : ∀ b i, InShape b B → InShape i I → InShape (tupleAt ind (b ++ i) X.length) X) :
    ∃ out, gatherND data ind B.length junk = some out ∧ out.shape = B ++ I ++ Y ∧
      ∀ b i y, InShape b B → InShape i I → InShape y Y →
        out.data (b ++ i ++ y) = data.data (b ++ tupleAt ind (b ++ i) X.length ++ y) := by
  obtain ⟨hB, hI, hY⟩ := hp
  have hL : (ind.shape.getD (ind.shape.length - 1) 0).toNat = X.length := by
    rw [hind, getD_right _ _ (by simp)]; simp
  have hBt : ind.shape.take B.length = B := by rw [hind]; simp
  have hIt : (ind.shape.drop B.length).take (ind.shape.length - 1 - B.length) = I := by
    rw [hind]; simp
  have hDt : data.shape.drop B.length = X ++ Y := by rw [hdata]; simp
  have hYt : data.shape.drop (B.length + X.length) = Y := by
    rw [hdata, ← List.length_append, List.drop_left]
  have hlen : data.shape.length - B.length = X.length + Y.length := by rw [hdata]; simp
  have hout : gatherNDShape data.shape ind.shape B.length X.length = B ++ I ++ Y := by
    unfold gatherNDShape
    rw [hBt, hIt, hYt, hlen]
    cases Y with
    | nil => simp
    | cons => rw [if_pos (by simp)]
  unfold gatherND
  simp only [hL, hBt, hIt, hDt, hYt, hlen, hout]
  -- one index tuple
  have hone : ∀ b i, InShape b B → InShape i I →
      gatherNDIndices ind [numel B, numel I, (X.length : ℤ)] X.length [lin B b, lin I i] =
        some (tupleAt ind (b ++ i) X.length) := by
    intro b i hb hi
    unfold gatherNDIndices tupleAt
    refine mapM_some _ _ _ fun k hk => ?_
    have hk := List.mem_range.1 hk
    refine loadReinterp_eq ?_ ?_ ?_
    · exact inShape_cons.2 ⟨lin_bounds hb, inShape_cons.2 ⟨lin_bounds hi, inShape_one (by omega)⟩⟩
    · rw [hind]; exact inShape_app (inShape_app hb hi) (inShape_one (by omega))
    · rw [hind, lin_append _ _ _ _ (by simp [hb.length, hi.length]), lin_append _ _ _ _ hb.length]
      simp [lin, numel]
      ring
  -- one loaded value
  have hval : ∀ b i y, InShape b B → InShape i I → InShape y Y →
      loadReinterp (numel B :: (X ++ Y)) data ([lin B b] ++ tupleAt ind (b ++ i) X.length ++ y) =
        some (data.data (b ++ tupleAt ind (b ++ i) X.length ++ y)) := by
    intro b i y hb hi hy
    have ht := hr b i hb hi
    have hx : InShape (tupleAt ind (b ++ i) X.length ++ y) (X ++ Y) := inShape_app ht hy
    refine loadReinterp_eq ?_ ?_ ?_
    · rw [List.append_assoc]; exact inShape_cons.2 ⟨lin_bounds hb, hx⟩
    · rw [hdata]; exact inShape_app (inShape_app hb ht) hy
    · rw [hdata, List.append_assoc B, List.append_assoc b, lin_append _ _ _ _ hb.length]
      rfl
  -- all pushes
  let V : Idx → R := fun o => data.data (o.take B.length ++
    tupleAt ind (o.take (B.length + I.length)) X.length ++ o.drop (B.length + I.length))
  have hV : ∀ b i y, InShape b B → InShape i I →
      V (b ++ i ++ y) = data.data (b ++ tupleAt ind (b ++ i) X.length ++ y) := by
    intro b i y hb hi
    have h1 : (b ++ i ++ y).take B.length = b := by
      rw [← hb.length, List.append_assoc]; simp
    have h2 : (b ++ i ++ y).take (B.length + I.length) = b ++ i := by
      rw [← hb.length, ← hi.length, ← List.length_append, List.take_left]
    have h3 : (b ++ i ++ y).drop (B.length + I.length) = y := by
      rw [← hb.length, ← hi.length, ← List.length_append, List.drop_left]
    simp only [V, h1, h2, h3]
  have hrun : ∀ st : Buf R × ℤ, iterate [numel B, numel I] (fun ij st =>
      (gatherNDIndices ind [numel B, numel I, (X.length : ℤ)] X.length ij).bind fun idx =>
        if X.length = X.length + Y.length then
          (loadReinterp (numel B :: (X ++ Y)) data (ij.take 1 ++ idx)).bind fun v => push st v
        else iterate Y (fun inner st =>
          (loadReinterp (numel B :: (X ++ Y)) data (ij.take 1 ++ idx ++ inner)).bind fun v => push st v) st) st
      = ((idxs (B ++ I ++ Y)).map V).foldlM push st := by
    intro st
    unfold iterate
    rw [idxs_two hB hI]
    have hmem : ∀ ij ∈ ((idxs B).flatMap fun b => (idxs I).map fun i => [lin B b, lin I i]),
        ∀ st : Buf R × ℤ,
        ((gatherNDIndices ind [numel B, numel I, (X.length : ℤ)] X.length ij).bind fun idx =>
          if X.length = X.length + Y.length then
            (loadReinterp (numel B :: (X ++ Y)) data (ij.take 1 ++ idx)).bind fun v => push st v
          else iterate Y (fun inner st =>
            (loadReinterp (numel B :: (X ++ Y)) data (ij.take 1 ++ idx ++ inner)).bind fun v => push st v) st)
        = ((idxs Y).map fun y => V (unlin B (ij.getD 0 0) ++ unlin I (ij.getD 1 0) ++ y)).foldlM push st := by
      intro ij hij st
      obtain ⟨b, hb, hij⟩ := List.mem_flatMap.1 hij
      obtain ⟨i, hi, rfl⟩ := List.mem_map.1 hij
      have hb := mem_idxs.1 hb
      have hi := mem_idxs.1 hi
      rw [hone b i hb hi, Option.bind_some]
      simp only [List.getD_cons_zero, List.getD_cons_succ, unlin_lin hb, unlin_lin hi, List.take_succ_cons,
        List.take_zero]
      by_cases hy : Y.length = 0
      · have hyn : Y = [] := List.length_eq_zero_iff.1 hy
        subst hyn
        rw [if_pos (by simp)]
        have := hval b i [] hb hi inShape_nil
        rw [List.append_nil, List.append_nil] at this
        simp only [List.append_nil] at this ⊢
        rw [this]
        have hv := hV b i [] hb hi
        simp only [List.append_nil] at hv
        simp only [idxs, List.map_cons, List.map_nil, List.foldlM_cons, List.foldlM_nil, List.append_nil, hv,
          Option.bind_some]
        cases push st (data.data (b ++ tupleAt ind (b ++ i) X.length)) <;> rfl
      · rw [if_neg (by omega)]
        refine iterate_push Y _ _ (fun y hy => ?_) st
        rw [hval b i y hb hi hy, hV b i y hb hi]
    rw [push_flatMap (fun ij => (idxs Y).map fun y => V (unlin B (ij.getD 0 0) ++ unlin I (ij.getD 1 0) ++ y))
      _ _ st hmem]
    congr 1
    rw [idxs_append, idxs_append, List.map_flatMap, List.flatMap_assoc, List.flatMap_assoc]
    refine List.flatMap_congr fun b hb => ?_
    rw [List.flatMap_map, List.flatMap_map]
    refine List.flatMap_congr fun i hi => ?_
    rw [List.map_map]
    refine List.map_congr_left fun y hy => ?_
    simp only [List.getD_cons_zero, List.getD_cons_succ, unlin_lin (mem_idxs.1 hb), unlin_lin (mem_idxs.1 hi)]
    rfl
  rw [hrun]
  have hall : ∀ d ∈ B ++ I ++ Y, 0 ≤ d := by
    intro d hd
    rcases List.mem_append.1 hd with hd | hd
    · rcases List.mem_append.1 hd with hd | hd
      · exact hB d hd
      · exact hI d hd
    · exact hY d hd
  have hlen2 : (((idxs (B ++ I ++ Y)).map V).length : ℤ) = numel (B ++ I ++ Y) := by
    rw [List.length_map, length_idxs hall]
  obtain ⟨b', e, hs, hlo, hv⟩ := push_list ((idxs (B ++ I ++ Y)).map V) ⟨numel (B ++ I ++ Y), junk⟩ 0
    (le_refl _) (by simp only [zero_add]; omega)
  rw [e]
  refine ⟨_, rfl, rfl, ?_⟩
  intro b i y hb hi hy
  have ho : InShape (b ++ i ++ y) (B ++ I ++ Y) := inShape_app (inShape_app hb hi) hy
  rw [← hV b i y hb hi]
  have := hv (lin (B ++ I ++ Y) (b ++ i ++ y)).toNat (V (b ++ i ++ y)) (by
    rw [List.getElem?_map, idxs_getElem hall ho]; rfl)
  rw [← this]
  simp only [ofFlat, zero_add]
  congr 1
  have := (lin_bounds ho).1
  omega

end Verif.Lower
