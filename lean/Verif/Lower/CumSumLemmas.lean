import Verif.Lower.ArgLemmas

/-!
Lemmas about the model of CumSum.
-/

namespace Verif.Lower

section
variable {R : Type*}

theorem axisSize_eq (da dc : List ℤ) (d : ℤ) : axisSize (da ++ [d] ++ dc) da.length = d := by
  unfold axisSize
  have hl : (da ++ [d] ++ dc).length = da.length + 1 + dc.length := by simp; omega
  rw [hl, List.range_add, List.range_succ, List.foldl_append, List.foldl_append]
  simp only [List.foldl_cons, List.foldl_nil, if_true, getD_mid]
  rw [List.foldl_map]
  have : ∀ (L : List ℕ), L.foldl (fun (s : ℤ) (i : ℕ) =>
      if (da.length : ℤ) = ((da.length + 1 + i : ℕ) : ℤ) then (da ++ [d] ++ dc).getD (da.length + 1 + i) 0 else s) d = d := by
    intro L
    induction L with
    | nil => rfl
    | cons x L ih => rw [List.foldl_cons, if_neg (by push_cast; omega), ih]
  exact this _

/-- The shifted access on one line: position `k ∓ offset` when it exists. -/
theorem shiftIndex_eq (da dc : List ℤ) (d : ℤ) (a c : Idx) (k off : ℤ) (reverse : Bool)
    (ha : a.length = da.length) (hc : c.length = dc.length) :
    shiftIndex (da ++ [d] ++ dc) (a ++ [k] ++ c) da.length off reverse =
      if (if reverse then k + off < d else 0 ≤ k - off) then
        (a ++ [if reverse then k + off else k - off] ++ c, true) else (a ++ [k] ++ c, false) := by
  have hl : (da ++ [d] ++ dc).length = da.length + 1 + dc.length := by simp; omega
  have hok : ∀ r : ℕ, shiftOk (da ++ [d] ++ dc) (a ++ [k] ++ c) da.length off reverse r =
      (decide (r = da.length) && decide (if reverse then k + off < d else 0 ≤ k - off)) := by
    intro r
    unfold shiftOk
    by_cases hr : r = da.length
    · subst hr
      rw [getD_mid, ← ha, getD_mid]
      cases reverse <;> simp
    · simp [hr]
  unfold shiftIndex
  rw [hl]
  simp only [hok]
  refine Prod.ext ?_ ?_
  · simp only
    by_cases hv : (if reverse then k + off < d else 0 ≤ k - off)
    · rw [if_pos hv]
      have := replace_axis a c k (if reverse then k + off else k - off) (da.length + 1 + dc.length) da.length ha.symm (by omega)
      refine Eq.trans (List.map_congr_left fun i _ => ?_) this
      rw [decide_eq_true hv]
      by_cases h : i = da.length
      · subst h
        rw [if_pos rfl, ← ha, getD_mid]
        simp
      · simp [h]
    · rw [if_neg hv]
      have := replace_axis a c k k (da.length + 1 + dc.length) da.length ha.symm (by omega)
      refine Eq.trans (List.map_congr_left fun i _ => ?_) this
      rw [decide_eq_false hv]
      by_cases h : i = da.length
      · subst h
        rw [if_pos rfl, ← ha, getD_mid]
        simp
      · simp [h]
  · simp only
    have key : ∀ (q : Bool) (L : List ℕ) (b : Bool), L.foldl (fun b r => (decide (r = da.length) && q) || b) b =
        ((decide (da.length ∈ L) && q) || b) := by
      intro q L
      induction L with
      | nil => intro b; simp
      | cons x L ih =>
        intro b
        rw [List.foldl_cons, ih]
        by_cases h : x = da.length
        · subst h; cases q <;> simp
        · have h' : ¬ da.length = x := fun e => h e.symm
          simp [h, h']
    rw [key]
    have hm : da.length ∈ List.range (da.length + 1 + dc.length) := List.mem_range.2 (by omega)
    simp only [hm, decide_true, Bool.true_and, Bool.or_false]
    by_cases hv : (if reverse then k + off < d else 0 ≤ k - off)
    · rw [if_pos hv]; exact decide_eq_true hv
    · rw [if_neg hv]; exact decide_eq_false hv

/-- Sum of the `2^s` values before (or after) a position, that one included. -/
def window [AddCommMonoid R] (g : ℤ → R) (reverse : Bool) (s : ℕ) (k : ℤ) : R :=
  ∑ t ∈ Finset.range (2 ^ s), g (if reverse then k + t else k - t)

theorem window_zero [AddCommMonoid R] (g : ℤ → R) (reverse : Bool) (k : ℤ) : window g reverse 0 k = g k := by
  unfold window; cases reverse <;> simp

theorem window_succ [AddCommMonoid R] (g : ℤ → R) (reverse : Bool) (s : ℕ) (k : ℤ) :
    window g reverse (s + 1) k = window g reverse s k +
      window g reverse s (if reverse then k + 2 ^ s else k - 2 ^ s) := by
  unfold window
  rw [show 2 ^ (s + 1) = 2 ^ s + 2 ^ s by ring, Finset.sum_range_add]
  congr 1
  refine Finset.sum_congr rfl fun t _ => ?_
  congr 1
  cases reverse
  · simp only [Bool.false_eq_true, if_false]; push_cast; ring
  · simp only [if_true]; push_cast; ring

/-- The window is empty of values when it starts outside of the line. -/
theorem window_out [AddCommMonoid R] {g : ℤ → R} {d : ℤ} (hg : ∀ j, ¬ (0 ≤ j ∧ j < d) → g j = 0) {reverse : Bool}
    {s : ℕ} {k : ℤ} (h : if reverse then d ≤ k else k < 0) : window g reverse s k = 0 := by
  unfold window
  refine Finset.sum_eq_zero fun t _ => hg _ ?_
  cases reverse
  · simp only [Bool.false_eq_true, if_false] at h ⊢; omega
  · simp only [if_true] at h ⊢; omega

theorem cumStep_spec [AddCommMonoid R] {da dc : List ℤ} {d : ℤ} {reverse : Bool} (step : ℕ)
    (g : Idx → Idx → ℤ → R) (hg : ∀ a c j, ¬ (0 ≤ j ∧ j < d) → g a c j = 0) (st : Mem R × Mem R)
    (h1 : st.1.shape = da ++ [d] ++ dc) (h2 : st.2.shape = da ++ [d] ++ dc)
    (hb : ∀ a k c, InShape a da → InShape c dc → 0 ≤ k → k < d →
      st.2.data (a ++ [k] ++ c) = window (g a c) reverse step k) :
    ∃ st', cumStep (da ++ [d] ++ dc) da.length reverse step st = some st' ∧
      st'.1.shape = da ++ [d] ++ dc ∧ st'.2.shape = da ++ [d] ++ dc ∧
      (∀ a k c, InShape a da → InShape c dc → 0 ≤ k → k < d →
        st'.1.data (a ++ [k] ++ c) = window (g a c) reverse (step + 1) k) ∧
      ∀ a k c, InShape a da → InShape c dc → 0 ≤ k → k < d →
        st'.2.data (a ++ [k] ++ c) = window (g a c) reverse (step + 1) k := by
  have hin : ∀ {a c : Idx} {k : ℤ}, InShape a da → InShape c dc → 0 ≤ k → k < d →
      InShape (a ++ [k] ++ c) (da ++ [d] ++ dc) :=
    fun ha hc h h' => inShape_app (inShape_app ha (inShape_one ⟨h, h'⟩)) hc
  have hpos : (0 : ℤ) < 2 ^ step := by positivity
  let f : Idx → Option R := fun i =>
    (st.2.load i).bind fun b1 =>
      let p := shiftIndex (da ++ [d] ++ dc) i da.length (2 ^ step) reverse
      (st.2.load p.1).map fun b2 => b1 + (if p.2 then b2 else 0)
  have hf : ∀ a k c, InShape a da → InShape c dc → 0 ≤ k → k < d →
      f (a ++ [k] ++ c) = some (window (g a c) reverse (step + 1) k) := by
    intro a k c ha hc hk hk'
    simp only [f]
    rw [mem_load (by rw [h2]; exact hin ha hc hk hk'), Option.bind_some,
      shiftIndex_eq da dc d a c k _ reverse ha.length hc.length, hb a k c ha hc hk hk', window_succ]
    by_cases hv : (if reverse then k + 2 ^ step < d else 0 ≤ k - 2 ^ step)
    · have hr : 0 ≤ (if reverse then k + 2 ^ step else k - 2 ^ step) ∧
          (if reverse then k + 2 ^ step else k - 2 ^ step) < d := by
        cases reverse
        · simp only [Bool.false_eq_true, if_false] at hv ⊢; omega
        · simp only [if_true] at hv ⊢; omega
      rw [if_pos hv]
      simp only [if_true]
      rw [mem_load (by rw [h2]; exact hin ha hc hr.1 hr.2), hb _ _ _ ha hc hr.1 hr.2]
      rfl
    · rw [if_neg hv]
      simp only [Bool.false_eq_true, if_false]
      have hw0 : window (g a c) reverse step (if reverse then k + 2 ^ step else k - 2 ^ step) = 0 := by
        refine window_out (hg a c) ?_
        cases reverse
        · simp only [Bool.false_eq_true, if_false] at hv ⊢; omega
        · simp only [if_true] at hv ⊢; omega
      rw [mem_load (by rw [h2]; exact hin ha hc hk hk'), hw0]
      simp
  have hf' : ∀ i, InShape i st.1.shape → f i = some ((f i).getD 0) := by
    intro i hi
    rw [h1] at hi
    obtain ⟨a, k, c, rfl, ha, hk, hc⟩ := inShape_split3 hi
    cases hk with
    | cons hk h0 => cases h0; rw [hf _ _ _ ha hc hk.1 hk.2]; rfl
  obtain ⟨res, e1, hs1, hr⟩ := fill_spec st.1 f _ hf'
  obtain ⟨buf, e2, hs2, hbu⟩ := fill_spec st.2 (fun i => res.load i) res.data (by
    intro i hi
    rw [mem_load]; rw [hs1, h1, ← h2]; exact hi)
  refine ⟨(res, buf), ?_, by rw [hs1, h1], by rw [hs2, h2], ?_, ?_⟩
  · unfold cumStep
    have e1' : (fill st.1 fun i => (st.2.load i).bind fun b1 =>
      let p := shiftIndex (da ++ [d] ++ dc) i da.length (2 ^ step) reverse
      (st.2.load p.1).map fun b2 => b1 + (if p.2 then b2 else 0)) = some res := e1
    rw [e1', Option.bind_some, e2]
    rfl
  · intro a k c ha hc hk hk'
    simp only
    rw [hr _ (by rw [h1]; exact hin ha hc hk hk'), hf _ _ _ ha hc hk hk']
    rfl
  · intro a k c ha hc hk hk'
    simp only
    rw [hbu _ (by rw [h2]; exact hin ha hc hk hk'), hr _ (by rw [h1]; exact hin ha hc hk hk'),
      hf _ _ _ ha hc hk hk']
    rfl

theorem cumLoop_spec [AddCommMonoid R] {da dc : List ℤ} {d : ℤ} {reverse : Bool}
    (g : Idx → Idx → ℤ → R) (hg : ∀ a c j, ¬ (0 ≤ j ∧ j < d) → g a c j = 0) (st : Mem R × Mem R)
    (h1 : st.1.shape = da ++ [d] ++ dc) (h2 : st.2.shape = da ++ [d] ++ dc)
    (hb : ∀ a k c, InShape a da → InShape c dc → 0 ≤ k → k < d → st.2.data (a ++ [k] ++ c) = g a c k) :
    ∀ n : ℕ, ∃ st', (List.range n).foldlM (fun st step => cumStep (da ++ [d] ++ dc) da.length reverse step st) st =
        some st' ∧ st'.1.shape = da ++ [d] ++ dc ∧ st'.2.shape = da ++ [d] ++ dc ∧
      (0 < n → ∀ a k c, InShape a da → InShape c dc → 0 ≤ k → k < d →
        st'.1.data (a ++ [k] ++ c) = window (g a c) reverse n k) ∧
      ∀ a k c, InShape a da → InShape c dc → 0 ≤ k → k < d →
        st'.2.data (a ++ [k] ++ c) = window (g a c) reverse n k
  | 0 => ⟨st, rfl, h1, h2, fun h => by omega, fun a k c ha hc hk hk' => by
      rw [window_zero]; exact hb a k c ha hc hk hk'⟩
  | n + 1 => by
    obtain ⟨st', e, s1, s2, _, hw⟩ := cumLoop_spec g hg st h1 h2 hb n
    obtain ⟨st'', e', s1', s2', hw1, hw2⟩ := cumStep_spec n g hg st' s1 s2 hw
    refine ⟨st'', ?_, s1', s2', fun _ => hw1, hw2⟩
    rw [List.range_succ, List.foldlM_append, e]
    simp only [Option.bind_eq_bind, Option.bind_some, List.foldlM_cons, List.foldlM_nil]
    rw [e']
    rfl

/-- Whether position `j` is summed into position `k` (ONNX CumSum). -/
def cumIncl (exclusive reverse : Bool) (j k : ℤ) : Bool :=
  match exclusive, reverse with
  | false, false => decide (j ≤ k)
  | true, false => decide (j < k)
  | false, true => decide (k ≤ j)
  | true, true => decide (k < j)

/-- A long enough window holds the whole sum. -/
theorem window_all [AddCommMonoid R] (x : ℤ → R) (exclusive reverse : Bool) (s : ℕ) {d k : ℤ} (hs : d ≤ 2 ^ s)
    (hk : 0 ≤ k) (hk' : k < d) :
    window (fun j => if 0 ≤ j ∧ j < d then
      (if exclusive then (if (if reverse then j + 1 < d else 0 ≤ j - 1) then
        x (if reverse then j + 1 else j - 1) else 0) else x j) else 0) reverse s k =
      ∑ j ∈ (Finset.Ico 0 d).filter (fun j => cumIncl exclusive reverse j k), x j := by
  unfold window
  symm
  refine Finset.sum_of_injOn
    (fun j : ℤ => ((if reverse then j - k else k - j) - (if exclusive then 1 else 0)).toNat) ?_ ?_ ?_ ?_
  · intro i hi j hj h
    simp only [Finset.coe_filter, Finset.mem_Ico, Set.mem_setOf_eq] at hi hj
    cases exclusive <;> cases reverse <;> simp [cumIncl] at hi hj h <;> omega
  · intro j hj
    simp only [Finset.coe_filter, Finset.mem_Ico, Set.mem_setOf_eq] at hj
    simp only [Finset.coe_range, Set.mem_Iio]
    zify
    cases exclusive <;> cases reverse <;> simp [cumIncl] at hj ⊢ <;> omega
  · intro t ht hn
    simp only [Finset.coe_filter, Finset.mem_Ico, Set.mem_image, Set.mem_setOf_eq, not_exists, not_and] at hn
    have key : ∀ j : ℤ, (0 ≤ j ∧ j < d) → cumIncl exclusive reverse j k = true →
      ¬ ((if reverse then j - k else k - j) - (if exclusive then 1 else 0)).toNat = t := fun j h1 h2 => hn j ⟨h1, h2⟩
    cases exclusive <;> cases reverse <;> simp only [Bool.false_eq_true, if_false, if_true, cumIncl,
      decide_eq_true_eq] at key ⊢
    · by_cases hr : 0 ≤ k - t ∧ k - (t : ℤ) < d
      · exact absurd (by omega) (key _ hr (by omega))
      · rw [if_neg hr]
    · by_cases hr : 0 ≤ k + t ∧ k + (t : ℤ) < d
      · exact absurd (by omega) (key _ hr (by omega))
      · rw [if_neg hr]
    · by_cases hr : 0 ≤ k - t ∧ k - (t : ℤ) < d
      · rw [if_pos hr]
        by_cases hr' : 0 ≤ k - (t : ℤ) - 1
        · exact absurd (by omega) (key (k - t - 1) (by omega) (by omega))
        · rw [if_neg hr']
      · rw [if_neg hr]
    · by_cases hr : 0 ≤ k + t ∧ k + (t : ℤ) < d
      · rw [if_pos hr]
        by_cases hr' : k + (t : ℤ) + 1 < d
        · exact absurd (by omega) (key (k + t + 1) (by omega) (by omega))
        · rw [if_neg hr']
      · rw [if_neg hr]
  · intro j hj
    simp only [Finset.mem_filter, Finset.mem_Ico] at hj
    obtain ⟨hj, hinc⟩ := hj
    cases exclusive <;> cases reverse <;> simp only [Bool.false_eq_true, if_false, if_true, cumIncl,
      decide_eq_true_eq] at hinc ⊢
    · have e : k - ((k - j - 0).toNat : ℤ) = j := by omega
      rw [e, if_pos hj]
    · have e : k + ((j - k - 0).toNat : ℤ) = j := by omega
      rw [e, if_pos hj]
    · have e : k - ((k - j - 1).toNat : ℤ) = j + 1 := by omega
      rw [e, if_pos (by omega), if_pos (by omega)]
      congr 1; omega
    · have e : k + ((j - k - 1).toNat : ℤ) = j - 1 := by omega
      rw [e, if_pos (by omega), if_pos (by omega)]
      congr 1; omega

theorem cumSum_spec [AddCommMonoid R] {da dc : List ℤ} {d : ℤ} {X : Mem R} (hX : X.shape = da ++ [d] ++ dc)
    {axis : ℤ} (hax : axis = da.length ∨ axis = (da.length : ℤ) - X.shape.length)
    (exclusive reverse lit : Bool) (hd : 0 < d) (h1 : lit = true → d ≠ 1) (junk junk' : Idx → R) :
    ∃ out, cumSum X axis exclusive reverse lit junk junk' = some out ∧ out.shape = da ++ [d] ++ dc ∧
      ∀ a k c, InShape a da → InShape c dc → 0 ≤ k → k < d →
        out.data (a ++ [k] ++ c) =
          ∑ j ∈ (Finset.Ico 0 d).filter (fun j => cumIncl exclusive reverse j k), X.data (a ++ [j] ++ c) := by
  have hlen : X.shape.length = da.length + 1 + dc.length := by rw [hX]; simp; omega
  have hax' : (if axis < 0 then axis + (X.shape.length : ℤ) else axis) = da.length := by
    rcases hax with h | h
    · rw [if_neg (by omega)]; omega
    · rw [if_pos (by omega)]; omega
  have hin : ∀ {a c : Idx} {k : ℤ}, InShape a da → InShape c dc → 0 ≤ k → k < d →
      InShape (a ++ [k] ++ c) X.shape :=
    fun ha hc h h' => by rw [hX]; exact inShape_app (inShape_app ha (inShape_one ⟨h, h'⟩)) hc
  unfold cumSum
  simp only
  rw [hax', hX, axisSize_eq, ← hX]
  let g : Idx → Idx → ℤ → R := fun a c j => if 0 ≤ j ∧ j < d then
      (if exclusive then (if (if reverse then j + 1 < d else 0 ≤ j - 1) then
        X.data (a ++ [if reverse then j + 1 else j - 1] ++ c) else 0) else X.data (a ++ [j] ++ c)) else 0
  have hinit : ∀ a k c, InShape a da → InShape c dc → 0 ≤ k → k < d →
      cumInit X da.length exclusive reverse (a ++ [k] ++ c) = some (g a c k) := by
    intro a k c ha hc hk hk'
    unfold cumInit
    have hg : g a c k = (if exclusive then (if (if reverse then k + 1 < d else 0 ≤ k - 1) then
        X.data (a ++ [if reverse then k + 1 else k - 1] ++ c) else 0) else X.data (a ++ [k] ++ c)) :=
      if_pos ⟨hk, hk'⟩
    rw [hg]
    cases exclusive with
    | false =>
      simp only [Bool.false_eq_true, not_false_eq_true, if_true, if_false]
      rw [mem_load (hin ha hc hk hk')]
    | true =>
      simp only [not_true_eq_false, if_false, if_true]
      rw [hX, shiftIndex_eq da dc d a c k 1 reverse ha.length hc.length]
      by_cases hv : (if reverse then k + 1 < d else 0 ≤ k - 1)
      · rw [if_pos hv, if_pos hv]
        have hr : 0 ≤ (if reverse then k + 1 else k - 1) ∧ (if reverse then k + 1 else k - 1) < d := by
          cases reverse
          · simp only [Bool.false_eq_true, if_false] at hv ⊢; omega
          · simp only [if_true] at hv ⊢; omega
        simp only [if_true]
        rw [mem_load (hin ha hc hr.1 hr.2)]
        rfl
      · rw [if_neg hv, if_neg hv]
        simp only [Bool.false_eq_true, if_false]
        rw [mem_load (hin ha hc hk hk')]
        rfl
  obtain ⟨buf, eb, hsb, hb⟩ := fill_spec ⟨X.shape, junk'⟩ (cumInit X da.length exclusive reverse)
    (fun i => (cumInit X da.length exclusive reverse i).getD 0) (by
      intro i hi
      simp only at hi
      rw [hX] at hi
      obtain ⟨a, k, c, rfl, ha, hk, hc⟩ := inShape_split3 hi
      cases hk with
      | cons hk h0 => cases h0; rw [hinit _ _ _ ha hc hk.1 hk.2]; rfl)
  rw [eb, Option.bind_some]
  simp only at hsb hb
  obtain ⟨st, e, hs1, _, hw, _⟩ := cumLoop_spec (reverse := reverse) (d := d) g
    (fun a c j h => by simp only [g]; rw [if_neg h]) (⟨X.shape, junk⟩, buf) hX (by rw [hsb, hX])
    (by
      intro a k c ha hc hk hk'
      simp only
      rw [hb _ (hin ha hc hk hk'), hinit _ _ _ ha hc hk hk']
      rfl) (numSteps lit d)
  rw [← hX] at e
  rw [e]
  refine ⟨st.1, rfl, by rw [hs1, hX], fun a k c ha hc hk hk' => ?_⟩
  have hn : 0 < numSteps lit d ∧ d ≤ 2 ^ numSteps lit d := by
    unfold numSteps
    cases lit with
    | false =>
      refine ⟨by simp, ?_⟩
      have := Nat.lt_pow_succ_log_self (b := 2) (by omega) d.toNat
      simp only [Bool.false_eq_true, if_false]
      zify at this
      push_cast
      rw [show ((d.toNat : ℕ) : ℤ) = d by omega] at this
      exact this.le
    | true =>
      simp only [if_true]
      have hd2 : 2 ≤ d.toNat := by have := h1 rfl; omega
      refine ⟨Nat.clog_pos (by omega) hd2, ?_⟩
      have := Nat.le_pow_clog (b := 2) (by omega) d.toNat
      zify at this
      rw [show ((d.toNat : ℕ) : ℤ) = d by omega] at this
      exact this
  rw [hw hn.1 a k c ha hc hk hk']
  exact window_all (fun j => X.data (a ++ [j] ++ c)) exclusive reverse _ hn.2 hk hk'

end

end Verif.Lower
