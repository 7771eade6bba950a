import Verif.Lower.ArgModel
import Verif.Lower.TransposeLemmas
import Mathlib.Algebra.BigOperators.Intervals
import Mathlib.Algebra.BigOperators.Group.Finset.Basic

/-!
Lemmas about the models of ArgMin, ArgMax, Hardmax and CumSum.
-/

namespace Verif.Lower

section
variable {R : Type*}

/-- A loop whose iterations read and update a single element each: the element at `x` is
obtained by the iterations that target it, in order. -/
theorem cellLoop {α : Type*} (tgt : α → Idx) (g : α → R → Option R) :
    ∀ (L : List α) (o : Mem R), (∀ a ∈ L, InShape (tgt a) o.shape) →
      (∀ x, ((L.filter fun a => decide (tgt a = x)).foldlM (fun v a => g a v) (o.data x)).isSome) →
      ∃ o', L.foldlM (fun o a => (Mem.load o (tgt a)).bind fun v => (g a v).bind fun w =>
          Mem.store o (tgt a) w) o = some o' ∧ o'.shape = o.shape ∧
        ∀ x, (L.filter fun a => decide (tgt a = x)).foldlM (fun v a => g a v) (o.data x) = some (o'.data x)
  | [], o, _, _ => ⟨o, rfl, rfl, fun _ => rfl⟩
  | a :: L, o, h, hs => by
    have h0 := h a (by simp)
    have e1 : Mem.load o (tgt a) = some (o.data (tgt a)) := by unfold Mem.load; rw [if_pos h0]
    have hsa := hs (tgt a)
    rw [List.filter_cons, if_pos (by simp), List.foldlM_cons] at hsa
    cases hg : g a (o.data (tgt a)) with
    | none => rw [hg] at hsa; simp at hsa
    | some w =>
      have e2 : Mem.store o (tgt a) w =
          some { o with data := fun i => if i = tgt a then w else o.data i } := by
        unfold Mem.store; rw [if_pos h0]
      have key : ∀ x, ((a :: L).filter fun a => decide (tgt a = x)).foldlM (fun v a => g a v) (o.data x) =
          (L.filter fun a => decide (tgt a = x)).foldlM (fun v a => g a v)
            (if x = tgt a then w else o.data x) := by
        intro x
        rw [List.filter_cons]
        by_cases hx : tgt a = x
        · subst hx
          rw [if_pos (by simp), if_pos rfl, List.foldlM_cons, hg]; rfl
        · rw [if_neg (by simpa using hx), if_neg (fun h => hx h.symm)]
      obtain ⟨o', e, hsh, hd⟩ := cellLoop tgt g L
        { o with data := fun i => if i = tgt a then w else o.data i } (fun b hb => h b (by simp [hb]))
        (fun x => by rw [← key x]; exact hs x)
      refine ⟨o', ?_, hsh, fun x => by rw [key x]; exact hd x⟩
      rw [List.foldlM_cons, e1]
      simp only [Option.bind_some, hg, e2, Option.bind_eq_bind]
      exact e

theorem flatMap_only {α β : Type*} {f : α → List β} {a : α} : ∀ {L : List α}, L.Nodup → a ∈ L →
    (∀ b ∈ L, b ≠ a → f b = []) → L.flatMap f = f a
  | [], _, h, _ => by simp at h
  | b :: L, hn, ha, h => by
    rw [List.nodup_cons] at hn
    rw [List.flatMap_cons]
    rcases List.mem_cons.1 ha with rfl | ha
    · have : L.flatMap f = [] := by
        rw [List.flatMap_eq_nil_iff]
        intro c hc
        exact h c (by simp [hc]) (fun e => hn.1 (e ▸ hc))
      rw [this, List.append_nil]
    · rw [h b (by simp) (fun e => hn.1 (e ▸ ha)), List.nil_append]
      exact flatMap_only hn.2 ha fun c hc => h c (by simp [hc])

/-- The iterations of a loop nest that agree with `a` and `c` outside of one dimension. -/
theorem filter_line {da dc : List ℤ} {d : ℤ} {a c : Idx} (ha : InShape a da) (hc : InShape c dc)
    (p : Idx → Bool)
    (hp : ∀ a' k c', InShape a' da → InShape c' dc → 0 ≤ k → k < d →
      (p (a' ++ [k] ++ c') = true ↔ a' = a ∧ c' = c)) :
    (idxs (da ++ [d] ++ dc)).filter p = (upto d).map fun k => a ++ [k] ++ c := by
  rw [idxs_append, idxs_append, idxs_one]
  simp only [List.map_map, List.flatMap_assoc, List.filter_flatMap, List.flatMap_map]
  rw [flatMap_only (nodup_idxs da) (mem_idxs.2 ha)]
  · simp only [List.map_eq_flatMap, List.filter_flatMap, Function.comp]
    have : ∀ k ∈ upto d, ((idxs dc).flatMap fun c' => List.filter p [a ++ [k] ++ c']) = [a ++ [k] ++ c] := by
      intro k hk
      have hk := mem_upto.1 hk
      rw [flatMap_only (nodup_idxs dc) (mem_idxs.2 hc)]
      · rw [List.filter_cons, if_pos ((hp a k c ha hc hk.1 hk.2).2 ⟨rfl, rfl⟩)]; rfl
      · intro b hb hne
        rw [List.filter_cons, if_neg (fun h => hne ((hp a k b ha (mem_idxs.1 hb) hk.1 hk.2).1 h).2)]; rfl
    refine List.flatMap_congr fun k hk => ?_
    exact this k hk
  · intro a' ha' hne
    rw [List.flatMap_eq_nil_iff]
    intro b hb
    have hk := mem_upto.1 hb
    rw [List.filter_eq_nil_iff]
    intro x hx h
    simp only [List.mem_map] at hx
    obtain ⟨c', hc', rfl⟩ := hx
    exact hne ((hp a' b c' (mem_idxs.1 ha') (mem_idxs.1 hc') hk.1 hk.2).1 h).1

/-! ### ArgMin and ArgMax -/

theorem axisMask_eq (p q : ℕ) :
    axisMask (p + 1 + q) p = List.replicate p false ++ [true] ++ List.replicate q false := by
  unfold axisMask
  rw [show p + 1 + q = p + (1 + q) by omega, List.replicate_add, List.replicate_add,
    List.set_append_right _ _ (by simp)]
  simp

theorem project_false (keep : Bool) (red : List Bool) : ∀ (a x : Idx),
    project keep (List.replicate a.length false ++ red) (a ++ x) = a ++ project keep red x
  | [], x => rfl
  | y :: a, x => by
    rw [List.length_cons, List.replicate_succ, List.cons_append, List.cons_append, project,
      project_false keep red a x]
    rfl

theorem outDims_false (keep : Bool) (red : List Bool) : ∀ (a x : Idx),
    outDims keep (List.replicate a.length false ++ red) (a ++ x) = a ++ outDims keep red x
  | [], x => rfl
  | y :: a, x => by
    rw [List.length_cons, List.replicate_succ, List.cons_append, List.cons_append, outDims,
      outDims_false keep red a x]
    rfl

/-- A reduced position: kept with size or index `z`, or removed. -/
def dropAt (keep : Bool) (z : ℤ) (a c : List ℤ) : List ℤ := if keep then a ++ [z] ++ c else a ++ c

theorem project_axis (keep : Bool) (a c : Idx) (k : ℤ) :
    project keep (axisMask (a.length + 1 + c.length) a.length) (a ++ [k] ++ c) = dropAt keep 0 a c := by
  rw [axisMask_eq, List.append_assoc, List.append_assoc, project_false]
  have := project_false keep [] c []
  simp only [List.append_nil] at this
  unfold dropAt
  cases keep <;> simp [project, this]

theorem outDims_axis (keep : Bool) (a c : List ℤ) (k : ℤ) :
    outDims keep (axisMask (a.length + 1 + c.length) a.length) (a ++ [k] ++ c) = dropAt keep 1 a c := by
  rw [axisMask_eq, List.append_assoc, List.append_assoc, outDims_false]
  have := outDims_false keep [] c []
  simp only [List.append_nil] at this
  unfold dropAt
  cases keep <;> simp [outDims, this]

theorem argDims_eq (keep : Bool) (a c : List ℤ) (k : ℤ) :
    argDims (a ++ [k] ++ c) a.length keep = dropAt keep 1 a c := by
  have hl : (a ++ [k] ++ c).length = a.length + 1 + c.length := by simp; omega
  unfold argDims dropAt
  rw [hl]
  cases keep with
  | true =>
    simp only [if_true]
    have := replace_axis a c k 1 (a.length + 1 + c.length) a.length rfl rfl
    rw [← this]
    refine List.map_congr_left fun i _ => ?_
    by_cases h : i = a.length <;> simp [h]
  | false =>
    simp only [Bool.false_eq_true, if_false]
    rw [show a.length + 1 + c.length - 1 = a.length + c.length by omega, List.range_add, List.map_append,
      List.map_map]
    congr 1
    · conv_rhs => rw [← map_getD_range a]
      refine List.map_congr_left fun i hi => ?_
      have hi := List.mem_range.1 hi
      rw [if_pos hi, List.append_assoc, getD_left _ _ hi]
    · conv_rhs => rw [← map_getD_range c]
      refine List.map_congr_left fun i hi => ?_
      simp only [Function.comp]
      rw [if_neg (by omega), getD_right _ _ (by simp)]
      congr 1
      simp only [List.length_append, List.length_cons, List.length_nil]; omega

theorem dropAt_inj {keep : Bool} {z : ℤ} {a c a' c' : List ℤ} (ha : a.length = a'.length) :
    dropAt keep z a c = dropAt keep z a' c' ↔ a = a' ∧ c = c' := by
  unfold dropAt
  constructor
  · cases keep with
    | true =>
      intro h
      simp only [if_true, List.append_assoc] at h
      have h1 := List.append_inj h ha
      refine ⟨h1.1, ?_⟩
      simpa using h1.2
    | false =>
      intro h
      exact List.append_inj h ha
  · rintro ⟨rfl, rfl⟩; rfl

theorem dropAt_inShape {keep : Bool} {da dc : List ℤ} {a c : Idx} (ha : InShape a da) (hc : InShape c dc) :
    InShape (dropAt keep 0 a c) (dropAt keep 1 da dc) := by
  unfold dropAt
  cases keep
  · exact inShape_app ha hc
  · exact inShape_app (inShape_app ha (inShape_one (by omega))) hc

theorem inShape_dropAt {keep : Bool} {da dc : List ℤ} {o : Idx} (h : InShape o (dropAt keep 1 da dc)) :
    ∃ a c, o = dropAt keep 0 a c ∧ InShape a da ∧ InShape c dc := by
  unfold dropAt at h ⊢
  cases keep with
  | false =>
    obtain ⟨a, c, rfl, ha, hc⟩ := inShape_split' h
    exact ⟨a, c, rfl, ha, hc⟩
  | true =>
    obtain ⟨a, b, c, rfl, ha, hb, hc⟩ := inShape_split3 h
    refine ⟨a, c, ?_, ha, hc⟩
    cases hb with
    | @cons x _ _ _ h1 h2 =>
      cases h2
      obtain ⟨h1, h2⟩ := h1
      have hx : x = 0 := by omega
      subst hx
      rfl

theorem dstIndex_eq (a c : Idx) (k v : ℤ) : dstIndex (a ++ [k] ++ c) a.length v = a ++ [v] ++ c := by
  unfold dstIndex
  rw [show (a ++ [k] ++ c).length = a.length + 1 + c.length by simp; omega,
    ← replace_axis a c k v (a.length + 1 + c.length) a.length rfl rfl]
  refine List.map_congr_left fun i _ => ?_
  by_cases h : i = a.length <;> simp [h]

/-- The fold over one line keeps the first best position seen so far. -/
theorem argStep_fold (better : R → R → Bool) (f : ℤ → R)
    (htr : ∀ x y z, better x y = true → better y z = true → better x z = true)
    (hneg : ∀ x y z, better x y = false → better y z = false → better x z = false)
    (hirr : ∀ x, better x x = false) (step : ℤ → ℤ → Option ℤ) (v0 : ℤ) (hv0 : v0 ≤ 0)
    (d : ℤ) (hstep : ∀ k v, 0 ≤ k → k < d → v < d → step k v =
      some (if better (f k) (f (if v < 0 then 0 else v)) then k else (if v < 0 then 0 else v))) :
    ∀ n : ℕ, (n : ℤ) ≤ d → ∃ v, (upto n).foldlM (fun v k => step k v) v0 = some v ∧
      (n = 0 → v = v0) ∧ (0 < n → 0 ≤ v ∧ v < n ∧
        (∀ k : ℤ, 0 ≤ k → k < n → better (f k) (f v) = false) ∧
        ∀ k : ℤ, 0 ≤ k → k < v → better (f v) (f k) = true)
  | 0, _ => ⟨v0, rfl, fun _ => rfl, fun h => by omega⟩
  | n + 1, hn => by
    obtain ⟨v, e, h0, h1⟩ := argStep_fold better f htr hneg hirr step v0 hv0 d hstep n (by push_cast at hn; omega)
    push_cast at hn
    rw [show ((n + 1 : ℕ) : ℤ) = (n : ℤ) + 1 by push_cast; rfl, upto_succ, List.foldlM_append, e]
    have hv : v < d := by
      rcases Nat.eq_zero_or_pos n with h | h
      · rw [h0 h]; omega
      · have := (h1 h).2.1; omega
    have e' : ((some v).bind fun s => List.foldlM (fun v k => step k v) s [(n : ℤ)]) =
        some (if better (f n) (f (if v < 0 then 0 else v)) then (n : ℤ) else (if v < 0 then 0 else v)) := by
      rw [Option.bind_some, List.foldlM_cons, hstep n v (by omega) (by omega) hv]; rfl
    refine ⟨_, e', fun h => by omega, fun _ => ?_⟩
    rcases Nat.eq_zero_or_pos n with h | h
    · subst h
      rw [h0 rfl, show (if v0 < 0 then (0 : ℤ) else v0) = 0 by split <;> omega]
      simp only [Nat.cast_zero]
      simp only [hirr, Bool.false_eq_true, if_false]
      refine ⟨by omega, by omega, fun k hk hk' => ?_, fun k hk hk' => by omega⟩
      rw [show k = 0 by omega]; exact hirr _
    · obtain ⟨g1, g2, g3, g4⟩ := h1 h
      rw [show (if v < 0 then (0 : ℤ) else v) = v from if_neg (by omega)]
      cases hb : better (f n) (f v) with
      | true =>
        simp only [if_true]
        have key : ∀ k, 0 ≤ k → k < (n : ℤ) → better (f n) (f k) = true := by
          intro k hk hk'
          by_contra hc
          have hc : better (f n) (f k) = false := by simpa using hc
          have := hneg _ _ _ hc (g3 k hk hk')
          rw [hb] at this; cases this
        refine ⟨by omega, by omega, fun k hk hk' => ?_, key⟩
        by_cases hkn : k < n
        · by_contra hc
          have := htr _ _ _ (key k hk hkn) (by simpa using hc)
          rw [hirr] at this; cases this
        · rw [show k = n by omega]; exact hirr _
      | false =>
        simp only [Bool.false_eq_true, if_false]
        refine ⟨g1, by omega, fun k hk hk' => ?_, g4⟩
        by_cases hkn : k < n
        · exact g3 k hk hkn
        · rw [show k = n by omega]; exact hb

/-- A position is the first best one of a line. -/
def FirstBest (better : R → R → Bool) (f : ℤ → R) (d v : ℤ) : Prop :=
  0 ≤ v ∧ v < d ∧ (∀ k : ℤ, 0 ≤ k → k < d → better (f k) (f v) = false) ∧
    ∀ k : ℤ, 0 ≤ k → k < v → better (f v) (f k) = true

theorem firstBest_unique {better : R → R → Bool} {f : ℤ → R} {d v w : ℤ} (hv : FirstBest better f d v)
    (hw : FirstBest better f d w) : v = w := by
  obtain ⟨a1, a2, a3, a4⟩ := hv
  obtain ⟨b1, b2, b3, b4⟩ := hw
  rcases lt_trichotomy v w with h | h | h
  · have := b4 v a1 h
    rw [a3 w b1 b2] at this; cases this
  · exact h
  · have := a4 w b1 h
    rw [b3 v a1 a2] at this; cases this

theorem argMinMax_spec {da dc : List ℤ} {d : ℤ} {data : Mem R} (lt : R → R → Bool) (kind : ArgKind)
    (hdata : data.shape = da ++ [d] ++ dc) (hd : 0 < d) {axis : ℤ} (keep sel : Bool) (junk : Idx → ℤ)
    (hax : axis = da.length ∨ axis = (da.length : ℤ) - data.shape.length)
    (htr : ∀ x y z, kind.better lt x y = true → kind.better lt y z = true → kind.better lt x z = true)
    (hneg : ∀ x y z, kind.better lt x y = false → kind.better lt y z = false → kind.better lt x z = false)
    (hirr : ∀ x, kind.better lt x x = false) :
    ∃ out, argMinMax lt kind data axis keep sel junk = some out ∧ out.shape = dropAt keep 1 da dc ∧
      ∀ a c, InShape a da → InShape c dc →
        FirstBest (kind.better lt) (fun k => data.data (a ++ [k] ++ c)) d (out.data (dropAt keep 0 a c)) := by
  have hlen : data.shape.length = da.length + 1 + dc.length := by rw [hdata]; simp; omega
  unfold argMinMax
  simp only
  rw [if_neg (by rw [hlen] at hax ⊢; push_cast at hax ⊢; omega)]
  have hax' : (if axis ≥ 0 then axis else (data.shape.length : ℤ) + axis).toNat = da.length := by
    rcases hax with h | h
    · rw [if_pos (by omega)]; omega
    · rw [if_neg (by omega)]; omega
  rw [hax', show argDims data.shape da.length keep = dropAt keep 1 da dc by rw [hdata, argDims_eq], hlen]
  obtain ⟨o, e, hs, ho⟩ := fill_spec ⟨dropAt keep 1 da dc, junk⟩ (fun _ => some (-1 : ℤ)) (fun _ => -1)
    (fun _ _ => rfl)
  rw [e, Option.bind_some]
  simp only at hs ho
  have hacc : ∀ a k c, InShape a da → InShape c dc →
      accStatic (dropAt keep 1 da dc).length (reductionMapping keep (axisMask (da.length + 1 + dc.length) da.length))
        (a ++ [k] ++ c) = dropAt keep 0 a c := by
    intro a k c ha hc
    have h1 := accStatic_eq keep (axisMask (da.length + 1 + dc.length) da.length) (da ++ [d] ++ dc) (a ++ [k] ++ c)
      (by simp [axisMask]; omega) (by simp [ha.length, hc.length])
    rw [outDims_axis] at h1
    rw [h1, ← ha.length, ← hc.length, project_axis]
  have hfold : ∀ a c, InShape a da → InShape c dc →
      ∃ v, ((idxs data.shape).filter fun i => decide (accStatic (dropAt keep 1 da dc).length
        (reductionMapping keep (axisMask (da.length + 1 + dc.length) da.length)) i = dropAt keep 0 a c)).foldlM
        (fun v i => argStep lt kind data da.length i v) (-1) = some v ∧
        FirstBest (kind.better lt) (fun k => data.data (a ++ [k] ++ c)) d v := by
    intro a c ha hc
    rw [hdata, filter_line ha hc _ ?_, List.foldlM_map]
    · have h0 := argStep_fold (kind.better lt) (fun k => data.data (a ++ [k] ++ c)) htr hneg hirr
        (fun k v => argStep lt kind data da.length (a ++ [k] ++ c) v) (-1) (by omega) d ?_ d.toNat (by omega)
      · obtain ⟨v, e, _, h⟩ := h0
        rw [show ((d.toNat : ℕ) : ℤ) = d by omega] at e h
        exact ⟨v, e, h (by omega)⟩
      · intro k v hk hk' hv
        have hin : ∀ x, 0 ≤ x → x < d → InShape (a ++ [x] ++ c) data.shape := by
          intro x h1 h2
          rw [hdata]; exact inShape_app (inShape_app ha (inShape_one ⟨h1, h2⟩)) hc
        have hw : 0 ≤ (if v < 0 then (0 : ℤ) else v) ∧ (if v < 0 then (0 : ℤ) else v) < d := by
          split <;> omega
        unfold argStep
        rw [mem_load (hin k hk hk'), Option.bind_some, ← ha.length]
        dsimp only
        rw [dstIndex_eq, mem_load (hin _ hw.1 hw.2), Option.map_some, getD_mid]
    · intro a' k c' ha' hc' _ _
      rw [decide_eq_true_eq, hacc a' k c' ha' hc', dropAt_inj (by rw [ha.length, ha'.length])]
  have h0 := cellLoop
    (accStatic (dropAt keep 1 da dc).length (reductionMapping keep (axisMask (da.length + 1 + dc.length) da.length)))
    (fun i v => argStep lt kind data da.length i v) (idxs data.shape) o ?_ ?_
  · obtain ⟨o', e', hs', hd'⟩ := h0
    refine ⟨o', e', by rw [hs', hs], fun a c ha hc => ?_⟩
    obtain ⟨v, ev, hv⟩ := hfold a c ha hc
    have := hd' (dropAt keep 0 a c)
    rw [ho _ (dropAt_inShape ha hc), ev] at this
    rw [← Option.some.inj this]
    exact hv
  · intro i hi
    have hi := mem_idxs.1 hi
    rw [hdata] at hi
    obtain ⟨a, k, c, rfl, ha, hk, hc⟩ := inShape_split3 hi
    cases hk with
    | cons h1 h2 =>
      cases h2
      rw [hacc _ _ _ ha hc, hs]
      exact dropAt_inShape ha hc
  · intro x
    by_cases hx : InShape x (dropAt keep 1 da dc)
    · obtain ⟨a, c, rfl, ha, hc⟩ := inShape_dropAt hx
      obtain ⟨v, ev, _⟩ := hfold a c ha hc
      rw [ho _ hx, ev]; rfl
    · have : (idxs data.shape).filter (fun i => decide (accStatic (dropAt keep 1 da dc).length
          (reductionMapping keep (axisMask (da.length + 1 + dc.length) da.length)) i = x)) = [] := by
        rw [List.filter_eq_nil_iff]
        intro i hi h
        have hi := mem_idxs.1 hi
        rw [hdata] at hi
        obtain ⟨a, k, c, rfl, ha, hk, hc⟩ := inShape_split3 hi
        cases hk with
        | cons h1 h2 =>
          cases h2
          rw [decide_eq_true_eq, hacc _ _ _ ha hc] at h
          exact hx (h ▸ dropAt_inShape ha hc)
      rw [this]; rfl

/-! ### Hardmax -/

theorem store_self {o : Mem R} {i : Idx} (h : InShape i o.shape) : o.store i (o.data i) = some o := by
  unfold Mem.store
  rw [if_pos h]
  congr 1
  have : (fun j => if j = i then o.data i else o.data j) = o.data := by
    funext j; by_cases h : j = i <;> simp [h]
  rw [this]

theorem hardArgStep_eq (lt : R → R → Bool) (input : Mem R) (axis : ℕ) (i : Idx) (o : Mem ℤ) :
    hardArgStep lt input axis i o = (o.load (i.set axis 0)).bind fun v =>
      ((input.load (i.set axis v)).bind fun mv => (input.load i).map fun nx =>
        if lt mv nx then i.getD axis 0 else v).bind fun w => o.store (i.set axis 0) w := by
  unfold hardArgStep
  by_cases h : InShape (i.set axis 0) o.shape
  · rw [mem_load h, Option.bind_some, Option.bind_some]
    cases input.load (i.set axis (o.data (i.set axis 0))) with
    | none => rfl
    | some mv =>
      cases input.load i with
      | none => rfl
      | some nx =>
        simp only [Option.bind_some, Option.map_some]
        split
        · rfl
        · rw [store_self h]
  · unfold Mem.load
    rw [if_neg h]; rfl

theorem emitArgmax_spec {da dc : List ℤ} {d : ℤ} {input : Mem R} (lt : R → R → Bool)
    (hdata : input.shape = da ++ [d] ++ dc) (hd : 0 < d)
    (htr : ∀ x y z, lt x y = true → lt y z = true → lt x z = true)
    (hneg : ∀ x y z, lt x y = false → lt y z = false → lt x z = false)
    (hirr : ∀ x, lt x x = false) :
    ∃ out, emitArgmax lt input da.length = some out ∧ out.shape = da ++ [1] ++ dc ∧
      ∀ a c, InShape a da → InShape c dc →
        FirstBest (fun x y => lt y x) (fun k => input.data (a ++ [k] ++ c)) d (out.data (a ++ [0] ++ c)) := by
  have hsh : input.shape.set da.length 1 = da ++ [1] ++ dc := by rw [hdata, set_mid]
  unfold emitArgmax iterate
  simp only [hardArgStep_eq, hsh]
  have hset : ∀ a k c v, InShape a da → ((a ++ [k] ++ c).set da.length v : Idx) = a ++ [v] ++ c := by
    intro a k c v ha
    rw [← ha.length, set_mid]
  have hfold : ∀ a c, InShape a da → InShape c dc →
      ∃ v, ((idxs input.shape).filter fun i => decide (i.set da.length 0 = a ++ [0] ++ c)).foldlM
        (fun v i => (input.load (i.set da.length v)).bind fun mv => (input.load i).map fun nx =>
          if lt mv nx then i.getD da.length 0 else v) 0 = some v ∧
        FirstBest (fun x y => lt y x) (fun k => input.data (a ++ [k] ++ c)) d v := by
    intro a c ha hc
    rw [hdata, filter_line ha hc _ ?_, List.foldlM_map]
    · have h0 := argStep_fold (fun x y => lt y x) (fun k => input.data (a ++ [k] ++ c))
        (fun x y z h1 h2 => htr _ _ _ h2 h1) (fun x y z h1 h2 => hneg _ _ _ h2 h1) hirr
        (fun k v => (input.load ((a ++ [k] ++ c).set da.length (if v < 0 then 0 else v))).bind fun mv =>
          (input.load (a ++ [k] ++ c)).map fun nx => if lt mv nx then (a ++ [k] ++ c).getD da.length 0 else
          (if v < 0 then 0 else v)) 0 (le_refl _) d ?_ d.toNat (by omega)
      · obtain ⟨v, e, _, h⟩ := h0
        rw [show ((d.toNat : ℕ) : ℤ) = d by omega] at e h
        refine ⟨v, ?_, h (by omega)⟩
        rw [← e]
        have key : ∀ (L : List ℤ) (v : ℤ), 0 ≤ v → (∀ k ∈ L, 0 ≤ k) →
            L.foldlM (fun v k => (input.load ((a ++ [k] ++ c).set da.length v)).bind fun mv =>
              (input.load (a ++ [k] ++ c)).map fun nx => if lt mv nx then (a ++ [k] ++ c).getD da.length 0 else v) v =
            L.foldlM (fun v k => (input.load ((a ++ [k] ++ c).set da.length (if v < 0 then 0 else v))).bind fun mv =>
              (input.load (a ++ [k] ++ c)).map fun nx => if lt mv nx then (a ++ [k] ++ c).getD da.length 0 else
              (if v < 0 then 0 else v)) v := by
          intro L
          induction L with
          | nil => intro v _ _; rfl
          | cons k L ih =>
            intro v hv hk
            rw [List.foldlM_cons, List.foldlM_cons, show (if v < 0 then (0 : ℤ) else v) = v from if_neg (by omega)]
            cases hx : (input.load ((a ++ [k] ++ c).set da.length v)).bind fun mv =>
                (input.load (a ++ [k] ++ c)).map fun nx => if lt mv nx then (a ++ [k] ++ c).getD da.length 0 else v with
            | none => rfl
            | some w =>
              simp only [Option.bind_eq_bind, Option.bind_some]
              refine ih w ?_ fun k hk' => hk k (by simp [hk'])
              cases h1 : input.load ((a ++ [k] ++ c).set da.length v) with
              | none => rw [h1] at hx; simp at hx
              | some mv =>
                cases h2 : input.load (a ++ [k] ++ c) with
                | none => rw [h1, h2] at hx; simp at hx
                | some nx =>
                  rw [h1, h2] at hx
                  simp only [Option.bind_some, Option.map_some, Option.some.injEq] at hx
                  rw [← hx, ← ha.length, getD_mid]
                  split
                  · exact hk k (by simp)
                  · exact hv
        exact key _ 0 (le_refl _) fun k hk => (mem_upto.1 hk).1
      · intro k v hk hk' hv
        have hin : ∀ x, 0 ≤ x → x < d → InShape (a ++ [x] ++ c) input.shape := by
          intro x h1 h2
          rw [hdata]; exact inShape_app (inShape_app ha (inShape_one ⟨h1, h2⟩)) hc
        have hw : 0 ≤ (if v < 0 then (0 : ℤ) else v) ∧ (if v < 0 then (0 : ℤ) else v) < d := by
          split <;> omega
        rw [hset _ _ _ _ ha, mem_load (hin _ hw.1 hw.2), Option.bind_some, mem_load (hin k hk hk'),
          Option.map_some, ← ha.length, getD_mid]
    · intro a' k c' ha' hc' _ _
      rw [decide_eq_true_eq, hset _ _ _ _ ha']
      have := dropAt_inj (keep := true) (z := 0) (c := c') (c' := c) (show a'.length = a.length by
        rw [ha.length, ha'.length])
      unfold dropAt at this
      simpa using this
  have h0 := cellLoop (fun i => i.set da.length 0)
    (fun i v => (input.load (i.set da.length v)).bind fun mv => (input.load i).map fun nx =>
          if lt mv nx then i.getD da.length 0 else v) (idxs input.shape) ⟨da ++ [1] ++ dc, fun _ => 0⟩ ?_ ?_
  · obtain ⟨o', e', hs', hd'⟩ := h0
    refine ⟨o', e', hs', fun a c ha hc => ?_⟩
    obtain ⟨v, ev, hv⟩ := hfold a c ha hc
    have := hd' (a ++ [0] ++ c)
    rw [ev] at this
    rw [← Option.some.inj this]
    exact hv
  · intro i hi
    have hi := mem_idxs.1 hi
    rw [hdata] at hi
    obtain ⟨a, k, c, rfl, ha, hk, hc⟩ := inShape_split3 hi
    cases hk with
    | cons h1 h2 =>
      cases h2
      rw [hset _ _ _ _ ha]
      exact inShape_app (inShape_app ha (inShape_one (by omega))) hc
  · intro x
    by_cases hx : InShape x (da ++ [1] ++ dc)
    · obtain ⟨a, c, rfl, ha, hc⟩ := inShape_dropAt (keep := true) hx
      obtain ⟨v, ev, _⟩ := hfold a c ha hc
      show Option.isSome (List.foldlM _ _ (List.filter (fun (i : Idx) => decide (i.set da.length 0 = a ++ [0] ++ c)) _)) = true
      rw [ev]; rfl
    · have : (idxs input.shape).filter (fun i => decide (i.set da.length 0 = x)) = [] := by
        rw [List.filter_eq_nil_iff]
        intro i hi h
        have hi := mem_idxs.1 hi
        rw [hdata] at hi
        obtain ⟨a, k, c, rfl, ha, hk, hc⟩ := inShape_split3 hi
        cases hk with
        | cons h1 h2 =>
          cases h2
          rw [decide_eq_true_eq, hset _ _ _ _ ha] at h
          exact hx (h ▸ inShape_app (inShape_app ha (inShape_one (by omega))) hc)
      rw [this]; rfl

theorem hardmax_spec {da dc : List ℤ} {d : ℤ} {input : Mem R} (lt : R → R → Bool) (zero one : R)
    (hdata : input.shape = da ++ [d] ++ dc) (hd : 0 < d) {axis : ℤ} (junk : Idx → R)
    (hax : axis = da.length ∨ axis = (da.length : ℤ) - input.shape.length)
    (htr : ∀ x y z, lt x y = true → lt y z = true → lt x z = true)
    (hneg : ∀ x y z, lt x y = false → lt y z = false → lt x z = false)
    (hirr : ∀ x, lt x x = false) :
    ∃ out, hardmax lt zero one input axis junk = some out ∧ out.shape = input.shape ∧
      ∀ a c, InShape a da → InShape c dc → ∃ v,
        FirstBest (fun x y => lt y x) (fun k => input.data (a ++ [k] ++ c)) d v ∧
        ∀ k, 0 ≤ k → k < d → out.data (a ++ [k] ++ c) = if v = k then one else zero := by
  have hlen : input.shape.length = da.length + 1 + dc.length := by rw [hdata]; simp; omega
  have hax' : (if axis ≥ 0 then axis else (input.shape.length : ℤ) + axis) = da.length := by
    rcases hax with h | h
    · rw [if_pos (by omega)]; omega
    · rw [if_neg (by omega)]; omega
  unfold hardmax
  simp only
  rw [hax', if_neg (by rw [hlen]; push_cast; omega)]
  obtain ⟨o, e, hs, ho⟩ := emitArgmax_spec lt hdata hd htr hneg hirr
  rw [show ((da.length : ℤ)).toNat = da.length by omega, e, Option.bind_some]
  obtain ⟨out, e', hs', ho'⟩ := fill_spec ⟨input.shape, junk⟩ (fun i =>
      (o.load (i.set da.length 0)).map fun maxInd => if maxInd = i.getD da.length 0 then one else zero)
    (fun i => if o.data (i.set da.length 0) = i.getD da.length 0 then one else zero) (by
      intro i hi
      simp only at hi
      rw [hdata] at hi
      obtain ⟨a, k, c, rfl, ha, hk, hc⟩ := inShape_split3 hi
      cases hk with
      | cons h1 h2 =>
        cases h2
        rw [mem_load]
        · rfl
        · rw [hs, ← ha.length, set_mid]
          exact inShape_app (inShape_app ha (inShape_one (by omega))) hc)
  refine ⟨out, e', hs', fun a c ha hc => ⟨_, ho a c ha hc, fun k hk hk' => ?_⟩⟩
  rw [ho' (a ++ [k] ++ c) (by
    simp only
    rw [hdata]; exact inShape_app (inShape_app ha (inShape_one ⟨hk, hk'⟩)) hc)]
  rw [← ha.length, set_mid, getD_mid]

end

end Verif.Lower
