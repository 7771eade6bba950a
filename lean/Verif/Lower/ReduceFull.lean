import Verif.Lower.ReduceTop

namespace Verif.Lower

open Verif.Krnl (Buf IE forLoop starts isTileFull multiReduction simdHi mem_starts)

section
variable {R : Type*}

/-- The reduction of the elements `[lb, lb + len)`. -/
def segVal (N : NumOps R) (k : RKind) (pre : R → R) (X : Buf R) (lb : ℤ) (len : ℕ) : R :=
  ((List.range len).map fun (j : ℕ) => pre (X.data (lb + j))).foldl (k.op N) (k.ident N)

theorem simdHi_lb {lb t : ℤ} {VL : ℕ} {simdOnly : Bool} (hVL : 0 < VL)
    (hd : simdOnly = true → (VL : ℤ) ∣ t) : simdHi lb t VL simdOnly = lb + t := by
  have := simdHi_eq (K := t) (simdOnly := simdOnly) hVL hd
  unfold simdHi at this ⊢
  split
  · rename_i h
    rw [if_pos h] at this
    omega
  · rfl

theorem oneStep_spec (N : NumOps R) (ks : List (RKind × (R → R))) (hks : ∀ k ∈ ks, k.1.Lawful N)
    (inp : ℕ → Buf R) (lb ub : ℤ) (lit : Bool) (VL : ℕ) (simdOnly final : Bool) (d : R)
    (hVL : 0 < VL) (h0 : 0 ≤ lb) (hlu : lb ≤ ub) (hub : ∀ v < ks.length, ub ≤ (inp v).size)
    (hs : simdOnly = true → (VL : ℤ) ∣ ub - lb) :
    ∃ out, oneStep N ks inp lb ub lit VL simdOnly final d = some out ∧ out.length = ks.length ∧
      ∀ (v : ℕ) k pre, ks[v]? = some (k, pre) → out[v]? = some
        (if final then post N k d (segVal N k pre (inp v) lb (ub - lb).toNat)
          else segVal N k pre (inp v) lb (ub - lb).toNat) := by
  unfold oneStep
  obtain ⟨tmp, e, ht⟩ := simdReduce_spec ⟨ks.length, inp, fun _ => 0, stepOp N ks, stepInit N ks d⟩ lb ⟨ub - lb, lit⟩ VL simdOnly hVL (by simp only; omega)
      (fun v hv => by
        simp only [simdHi_lb hVL hs]
        have := hub v hv
        omega) (ub - lb).toNat (by rw [simdHi_lb hVL hs]; omega)
  rw [e, Option.bind_some]
  refine ⟨_, rfl, by simp, ?_⟩
  intro v k pre hv
  have hlt : v < ks.length := (List.getElem?_eq_some_iff.1 hv).1
  have hmem : (k, pre) ∈ ks := List.mem_of_getElem? hv
  have := ht v hlt (k.op N) (k.ident N) pre (hks _ hmem) (fun t x => by simp only [stepOp, hv]) (by simp only [stepInit, hv])
  simp only [zero_add] at this
  rw [List.getElem?_map, List.getElem?_zipIdx, hv]
  simp only [Option.map_some, Nat.zero_add, combine_eq, this]
  rfl

theorem mapM_range {α : Type*} (f : ℕ → Option α) : ∀ (n : ℕ) (g : ℕ → α),
    (∀ t < n, f t = some (g t)) → (List.range n).mapM f = some ((List.range n).map g)
  | 0, _, _ => rfl
  | n + 1, g, h => by
    rw [List.range_succ, List.mapM_append, mapM_range f n g (fun t ht => h t (by omega))]
    simp [h n (by omega)]

theorem fold_prod [CommMonoid R] (L : List R) : L.foldl (· * ·) 1 = L.prod := by
  have := foldl_mul (fun x : R => x) L 1
  simpa using this

/-- Consecutive segments. -/
theorem seg_prod [CommMonoid R] (g : ℤ → R) (b : ℕ) (n : ℕ) : ∀ T : ℕ, (∀ t < T, t * b ≤ n) →
    ∏ t ∈ Finset.range T, ∏ j ∈ Finset.range (min (t * b + b) n - t * b), g (t * b + j) =
      ∏ j ∈ Finset.range (min (T * b) n), g j
  | 0, _ => by simp
  | T + 1, h => by
    rw [Finset.prod_range_succ, seg_prod g b n T (fun t ht => h t (by omega))]
    have hT := h T (by omega)
    have e1 : min (T * b) n = T * b := by omega
    have e2 : min ((T + 1) * b) n = T * b + (min (T * b + b) n - T * b) := by
      rw [Nat.succ_mul]; omega
    rw [e1, e2, Finset.prod_range_add]
    congr 1

/-- Eight segments cover the whole range. -/
theorem thread_cover {op : R → R → R} {e : R} (hop : IsCommMon op e) (g : ℤ → R) (n : ℤ) (hn : 0 ≤ n)
    (h7 : 7 * ((n + 7) / 8) ≤ n) :
    ((List.range 8).map fun (t : ℕ) =>
      ((List.range ((threadRange n 8 t).2 - (threadRange n 8 t).1).toNat).map
        fun (j : ℕ) => g ((threadRange n 8 t).1 + j)).foldl op e).foldl op e =
      ((List.range n.toNat).map fun (j : ℕ) => g j).foldl op e := by
  letI : CommMonoid R := hop.toCommMonoid
  obtain ⟨m, rfl⟩ := Int.eq_ofNat_of_zero_le hn
  have hb : ((m : ℤ) + 7) / 8 = (((m + 7) / 8 : ℕ) : ℤ) := by push_cast; rfl
  have h8 : m ≤ 8 * ((m + 7) / 8) := by omega
  set b := (m + 7) / 8 with hbdef
  have h7' : 7 * b ≤ m := by omega
  have e1 : ∀ L : List R, L.foldl op e = L.prod := fun L => fold_prod L
  simp only [e1, range_map_prod]
  have key := seg_prod g b m 8 (fun t ht => le_trans (Nat.mul_le_mul_right b (by omega : t ≤ 7)) h7')
  rw [show min (8 * b) m = m by omega] at key
  rw [Int.toNat_natCast, ← key]
  refine Finset.prod_congr rfl fun t ht => ?_
  have ht8 : t < 8 := Finset.mem_range.1 ht
  have hr1 : (threadRange (m : ℤ) 8 t).1 = ((t * b : ℕ) : ℤ) := by
    simp only [threadRange]
    rw [show ((m : ℤ) + (((8 : ℕ) : ℤ) - 1)) / ((8 : ℕ) : ℤ) = (b : ℤ) by rw [← hb]; norm_num]
    push_cast; rfl
  have hr2 : (threadRange (m : ℤ) 8 t).2 = ((min (t * b + b) m : ℕ) : ℤ) := by
    simp only [threadRange]
    rw [show ((m : ℤ) + (((8 : ℕ) : ℤ) - 1)) / ((8 : ℕ) : ℤ) = (b : ℤ) by rw [← hb]; norm_num]
    push_cast; rfl
  rw [hr1, hr2]
  have : (((min (t * b + b) m : ℕ) : ℤ) - ((t * b : ℕ) : ℤ)).toNat = min (t * b + b) m - t * b := by
    omega
  rw [this]
  refine Finset.prod_congr rfl fun j _ => ?_
  push_cast
  rfl

theorem fullReduce_seq (N : NumOps R) (ks : List (RKind × (R → R))) (hks : ∀ k ∈ ks, k.1.Lawful N)
    (X : Buf R) (lit : Bool) (VL : ℕ) (simdOnly : Bool) (hVL : 0 < VL) (hX : 0 ≤ X.size)
    (hs : simdOnly = true → (VL : ℤ) ∣ X.size) :
    ∃ out, fullReduce N ks X lit VL simdOnly false = some out ∧ out.length = ks.length ∧
      ∀ (v : ℕ) k pre, ks[v]? = some (k, pre) → out[v]? = some
        (post N k (N.ofInt X.size) (segVal N k pre X 0 X.size.toNat)) := by
  obtain ⟨out, e, hl, hv⟩ := oneStep_spec N ks hks (fun _ => X) 0 X.size lit VL simdOnly true
    (N.ofInt X.size) hVL (le_refl _) hX (fun _ _ => le_refl _) (by simpa using hs)
  refine ⟨out, by unfold fullReduce; simpa using e, hl, ?_⟩
  intro v k pre h
  have := hv v k pre h
  simpa using this

theorem fullReduce_par (N : NumOps R) (ks : List (RKind × (R → R))) (hks : ∀ k ∈ ks, k.1.Lawful N)
    (X : Buf R) (lit : Bool) (VL : ℕ) (simdOnly : Bool) (hVL : 0 < VL) (hX : 0 ≤ X.size)
    (h7 : 7 * ((X.size + 7) / 8) ≤ X.size)
    (hpre : ∀ k ∈ ks, ∀ t < 8, k.2 (segVal N k.1 k.2 X (threadRange X.size 8 t).1
        ((threadRange X.size 8 t).2 - (threadRange X.size 8 t).1).toNat) =
      segVal N k.1 k.2 X (threadRange X.size 8 t).1
        ((threadRange X.size 8 t).2 - (threadRange X.size 8 t).1).toNat) :
    ∃ out, fullReduce N ks X lit VL simdOnly true = some out ∧ out.length = ks.length ∧
      ∀ (v : ℕ) k pre, ks[v]? = some (k, pre) → out[v]? = some
        (post N k (N.ofInt X.size) (segVal N k pre X 0 X.size.toNat)) := by
  have step : ∀ t < 8, ∃ out, oneStep N ks (fun _ => X) (threadRange X.size 8 t).1
      (threadRange X.size 8 t).2 false VL false false (N.ofInt X.size) = some out ∧
      out.length = ks.length ∧ ∀ (v : ℕ) k pre, ks[v]? = some (k, pre) → out[v]? = some
        (segVal N k pre X (threadRange X.size 8 t).1
          ((threadRange X.size 8 t).2 - (threadRange X.size 8 t).1).toNat) := by
    intro t ht
    have hr : 0 ≤ (threadRange X.size 8 t).1 ∧ (threadRange X.size 8 t).1 ≤ (threadRange X.size 8 t).2 ∧
        (threadRange X.size 8 t).2 ≤ X.size := by
      simp only [threadRange]
      rw [show (X.size + (((8 : ℕ) : ℤ) - 1)) / ((8 : ℕ) : ℤ) = (X.size + 7) / 8 by norm_num]
      have hb0 : 0 ≤ (X.size + 7) / 8 := by omega
      generalize (X.size + 7) / 8 = b at *
      have h1 : (t : ℤ) * b ≤ 7 * b := mul_le_mul_of_nonneg_right (by omega) hb0
      have h2 : 0 ≤ (t : ℤ) * b := mul_nonneg (by omega) hb0
      omega
    obtain ⟨out, e, hl, hv⟩ := oneStep_spec N ks hks (fun _ => X) (threadRange X.size 8 t).1
      (threadRange X.size 8 t).2 false VL false false (N.ofInt X.size) hVL hr.1 hr.2.1
      (fun _ _ => hr.2.2) (by simp)
    exact ⟨out, e, hl, fun v k pre h => by simpa using hv v k pre h⟩
  choose! g hg using step
  unfold fullReduce
  simp only [if_true]
  rw [mapM_range _ 8 g (fun t ht => (hg t ht).1), Option.bind_some]
  obtain ⟨out, e, hl, hv⟩ := oneStep_spec N ks hks
    (fun v => (⟨8, fun p => (((List.range 8).map g).getD p.toNat []).getD v (N.ofInt X.size)⟩ : Buf R))
    0 8 true 1 false true (N.ofInt X.size) (by omega) (by omega) (by omega) (fun _ _ => le_refl _)
    (by simp)
  refine ⟨out, e, hl, ?_⟩
  intro v k pre h
  have hmem : (k, pre) ∈ ks := List.mem_of_getElem? h
  rw [hv v k pre h, if_pos rfl]
  congr 2
  have hcov := thread_cover (hks _ hmem) (fun p => pre (X.data p)) X.size hX h7
  simp only at hcov
  unfold segVal at hpre ⊢
  simp only [zero_add]
  rw [← hcov]
  congr 1
  rw [show ((8 : ℤ) - 0).toNat = 8 by rfl]
  refine List.map_congr_left fun t ht => ?_
  have ht8 : t < 8 := List.mem_range.1 ht
  have h1 := (hg t ht8).2.2 v k pre h
  have h2 : ((List.map g (List.range 8)).getD (t : ℤ).toNat []).getD v (N.ofInt X.size) =
      segVal N k pre X (threadRange X.size 8 t).1
        ((threadRange X.size 8 t).2 - (threadRange X.size 8 t).1).toNat := by
    rw [Int.toNat_natCast, List.getD_eq_getElem?_getD (l := List.map g (List.range 8)), List.getElem?_map,
      List.getElem?_range ht8]
    simp only [Option.map_some, Option.getD_some]
    rw [List.getD_eq_getElem?_getD, h1, Option.getD_some]
  rw [h2]
  exact hpre _ hmem t ht8

/-- The whole tensor, in the order of the specification. -/
theorem segVal_all (N : NumOps R) (k : RKind) (X : Mem R) (hd : ∀ d ∈ X.shape, 0 ≤ d) :
    segVal N k id X.flat 0 X.flat.size.toNat =
      reduceAt (k.op N) (k.ident N) X false (List.replicate X.shape.length true) [] := by
  have hall : contributing X.shape false (List.replicate X.shape.length true) [] = idxs X.shape := by
    refine List.filter_eq_self.2 fun i hi => ?_
    have hl := (mem_idxs.1 hi).length
    have := project_inner false [] i
    rw [hl] at this
    simp only [innerMask, List.length_nil, List.replicate_zero, List.nil_append] at this
    simpa using this
  unfold segVal reduceAt
  rw [hall]
  congr 1
  have := row_list X [] X.shape (by simp) hd [] inShape_nil
  simp only [lin, List.nil_append, zero_mul, zero_add] at this
  simp only [zero_add, id]
  exact this

end

/-! ### Axes -/

theorem set_fold_spec (rank : ℕ) (f : ℤ → Option ℕ) (hf : ∀ a n, f a = some n → n < rank) :
    ∀ (l : List ℤ) (red0 red : List Bool), red0.length = rank →
      l.foldlM (fun (red : List Bool) (a : ℤ) => (f a).map fun n => red.set n true) red0 = some red →
      red.length = rank ∧ ∀ i, red.getD i false = true ↔
        (red0.getD i false = true ∨ ∃ a ∈ l, f a = some i)
  | [], red0, red, h0, h => by
    simp only [List.foldlM_nil, pure, Option.some.injEq] at h
    subst h
    simp [h0]
  | a :: l, red0, red, h0, h => by
    rw [List.foldlM_cons] at h
    cases hfa : f a with
    | none => rw [hfa] at h; simp at h
    | some n =>
      rw [hfa] at h
      simp only [Option.map_some, bind, Option.bind_some] at h
      obtain ⟨h1, h2⟩ := set_fold_spec rank f hf l (red0.set n true) red (by simp [h0]) h
      refine ⟨h1, fun i => ?_⟩
      rw [h2]
      have hn := hf a n hfa
      have : (red0.set n true).getD i false = true ↔ (red0.getD i false = true ∨ n = i) := by
        simp only [List.getD_eq_getElem?_getD, List.getElem?_set]
        by_cases hni : n = i
        · subst hni; simp [h0, hn]
        · simp [hni]
      rw [this]
      constructor
      · rintro ((h | h) | ⟨b, hb, h⟩)
        · exact Or.inl h
        · exact Or.inr ⟨a, by simp, by rw [hfa, h]⟩
        · exact Or.inr ⟨b, by simp [hb], h⟩
      · rintro (h | ⟨b, hb, h⟩)
        · exact Or.inl (Or.inl h)
        · rcases List.mem_cons.1 hb with rfl | hb
          · rw [hfa] at h; exact Or.inl (Or.inr (by simpa using h))
          · exact Or.inr ⟨b, hb, h⟩

theorem set_fold_some (rank : ℕ) (f : ℤ → Option ℕ) :
    ∀ (l : List ℤ) (red0 : List Bool), (∀ a ∈ l, (f a).isSome) →
      ∃ red, l.foldlM (fun (red : List Bool) (a : ℤ) => (f a).map fun n => red.set n true) red0 = some red
  | [], red0, _ => ⟨red0, rfl⟩
  | a :: l, red0, h => by
    obtain ⟨n, hn⟩ := Option.isSome_iff_exists.1 (h a (by simp))
    rw [List.foldlM_cons, hn]
    exact set_fold_some rank f l (red0.set n true) fun b hb => h b (by simp [hb])

/-- Position of an axis. -/
def axisPos (rank : ℕ) (a : ℤ) : Option ℕ :=
  if a < -(rank : ℤ) ∨ a > (rank : ℤ) - 1 then none
  else some (if a ≥ 0 then a else rank + a).toNat

theorem axisPos_iff (rank : ℕ) (a : ℤ) (i : ℕ) :
    axisPos rank a = some i ↔ i < rank ∧ (a = i ∨ a = (i : ℤ) - rank) := by
  unfold axisPos
  split
  · simp; omega
  · split <;> simp <;> omega

theorem normAxes_eq (rank : ℕ) (l : List ℤ) : normAxes rank l =
    l.foldlM (fun (red : List Bool) (a : ℤ) => (axisPos rank a).map fun n => red.set n true)
      (List.replicate rank false) := by
  unfold normAxes
  congr 1
  funext red a
  unfold axisPos
  by_cases h : a < -(rank : ℤ) ∨ a > (rank : ℤ) - 1
  · rw [if_pos h, if_pos h]; rfl
  · rw [if_neg h, if_neg h]; rfl

theorem dynMask_eq (rank : ℕ) (lenKnown noop : Bool) (l : List ℤ) : dynMask rank lenKnown noop l =
    l.foldlM (fun (red : List Bool) (a : ℤ) => (axisPos rank a).map fun n => red.set n true)
      (List.replicate rank (!lenKnown && !noop && decide (l.length = 0))) := by
  unfold dynMask
  congr 1
  funext red a
  unfold axisPos
  simp only
  by_cases h : a < -(rank : ℤ) ∨ a > (rank : ℤ) - 1
  · rw [if_pos h, if_neg (by split <;> omega)]; rfl
  · rw [if_neg h, if_pos (by split <;> omega)]
    simp only [Option.map_some, Option.some.injEq]
    congr 1
    split <;> split <;> omega

end Verif.Lower
