import Verif.Einsum.Ops
import Verif.Rewrite.GemmLemmas
import Verif.ConvTranspose.WeightLemmas

/-! # Transposes and products of values with subscripts -/

namespace Verif.Einsum

open Verif.Rewrite

variable {V : Type} [Inhabited V] {A : Alg V} {D : Char → ℕ}

theorem getD_map_idxOf {subs : List Char} {x : Char} (g : Char → ℕ) (h : x ∈ subs) :
    (subs.map g).getD (subs.idxOf x) 0 = g x := by
  have hl := List.idxOf_lt_length_of_mem h
  rw [List.getD_eq_getElem _ _ (by simpa using hl), List.getElem_map, List.getElem_idxOf]

theorem isPerm_idxOf {subs subs' : List Char} (hp : subs'.Perm subs) (hn : subs.Nodup) :
    IsPerm subs.length (subs'.map subs.idxOf) := by
  refine ⟨by simpa using hp.length_eq, ?_, ?_⟩
  · refine List.Nodup.map_on ?_ (hp.nodup_iff.2 hn)
    intro x hx y hy h
    exact (List.idxOf_inj (hp.subset hx)).1 h
  · intro a ha
    obtain ⟨x, hx, rfl⟩ := List.mem_map.1 ha
    exact List.idxOf_lt_length_of_mem (hp.subset hx)

/-- Transposing the axes into another order of the subscripts. -/
theorem transposeTo_spec {e : Char → ℕ} {o : Out V} (h : WF D e o) (hn : o.subs.Nodup) {subs : List Char}
    (hp : subs.Perm o.subs) :
    ∃ o', transposeTo o subs = some o' ∧ WF D e o' ∧ o'.subs = subs ∧
      ∀ g, (∀ x ∈ o.subs, g x < e x) → o'.value.get (subs.map g) = o.value.get (o.subs.map g) := by
  unfold transposeTo
  rw [if_neg (by rw [hp.length_eq]; simp)]
  by_cases h0 : o.subs = subs
  · rw [if_pos h0]
    exact ⟨o, rfl, h, h0, fun g _ => by rw [h0]⟩
  rw [if_neg h0]
  have hvl : o.value.shape.length = o.subs.length := by rw [h.value]; simp
  have hperm : IsPerm o.value.shape.length (subs.map o.subs.idxOf) := by rw [hvl]; exact isPerm_idxOf hp hn
  have hts : tShape (subs.map o.subs.idxOf) o.value.shape = subs.map e := by
    unfold tShape
    rw [List.map_map, h.value]
    exact List.map_congr_left fun x hx => getD_map_idxOf e (hp.subset hx)
  have hsp : shapePermute o.shape (subs.map o.subs.idxOf) = subs.map e := by
    unfold shapePermute
    rw [h.shape]
    apply List.ext_getElem
    · simpa using hp.length_eq.symm
    · intro a ha hb
      have ha' : a < subs.length := by simpa using hb
      rw [List.getElem_map, List.getElem_range, List.getD_eq_getElem (subs.map o.subs.idxOf) _ (by simpa using ha'),
        List.getElem_map, getD_map_idxOf e (hp.subset (List.getElem_mem ha')), List.getElem_map]
  have ht := transpose_some.2 ⟨hperm, rfl⟩
  refine ⟨⟨subs, subs.map e, build (tShape (subs.map o.subs.idxOf) o.value.shape) fun idx =>
    o.value.get (tIdx o.value.shape.length (subs.map o.subs.idxOf) idx)⟩, ?_, ⟨rfl, hts, ?_⟩, rfl, ?_⟩
  · simp only
    rw [hsp, typed_some ht (by rw [build_shape, hts])]
    rfl
  · exact fun x hx => h.dims x (hp.subset hx)
  · intro g hg
    show (build _ _).get _ = _
    rw [get_build _ (by rw [hts]; exact map_inBounds fun x hx => hg x (hp.subset hx))]
    congr 1
    unfold tIdx
    rw [hvl]
    apply List.ext_getElem
    · simp
    · intro a ha hb
      have ha' : a < o.subs.length := by simpa using hb
      rw [List.getElem_map, List.getElem_range, List.getElem_map]
      have hx : o.subs[a] ∈ subs := hp.symm.subset (List.getElem_mem ha')
      have hidx : (subs.map o.subs.idxOf).idxOf a = subs.idxOf o.subs[a] := by
        have hnd := (isPerm_idxOf hp hn).2.1
        have hl := List.idxOf_lt_length_of_mem hx
        have hl' : subs.idxOf o.subs[a] < (subs.map o.subs.idxOf).length := by simpa using hl
        have : (subs.map o.subs.idxOf)[subs.idxOf o.subs[a]] = a := by
          rw [List.getElem_map, List.getElem_idxOf, hn.idxOf_getElem]
        conv_lhs => rw [← this]
        exact hnd.idxOf_getElem _ hl'
      rw [hidx, getD_map_idxOf g hx]

theorem transposeTo_den {e : Char → ℕ} {o : Out V} (h : WF D e o) (hn : o.subs.Nodup) {subs : List Char}
    (hp : subs.Perm o.subs) :
    ∃ o', transposeTo o subs = some o' ∧ WF D e o' ∧ o'.subs = subs ∧
      ∀ σ, (∀ x, σ x < D x) → den e o' σ = den e o σ := by
  obtain ⟨o', h1, h2, h3, h4⟩ := transposeTo_spec h hn hp
  refine ⟨o', h1, h2, h3, fun σ hσ => ?_⟩
  unfold den
  rw [h3]
  exact h4 _ fun x hx => pos_lt (h.dims x hx) (hσ x)

/-- The extents after inserting the subscripts that do not occur. -/
def withOnes (subs : List Char) (e : Char → ℕ) (x : Char) : ℕ := if x ∈ subs then e x else 1

theorem unsqueezeTo_spec {e : Char → ℕ} {o : Out V} (h : WF D e o) {subs : List Char}
    (hf : subs.filter (· ∈ o.subs) = o.subs) :
    ∃ o', unsqueezeTo o subs = some o' ∧ WF D (withOnes o.subs e) o' ∧ o'.subs = subs ∧
      ∀ σ, (∀ x, σ x < D x) → den (withOnes o.subs e) o' σ = den e o σ := by
  unfold unsqueezeTo
  simp only
  set ax := (List.range subs.length).filter fun a => subs.getD a ' ' ∉ o.subs with hax
  have hdrop : dropFrom ax 0 subs = o.subs := by
    have := dropFrom_filter (fun x => decide (x ∉ o.subs)) ' ' 0 subs
    rw [← List.range_eq_range'] at this
    simp only [Nat.sub_zero] at this
    rw [← hax] at this
    rw [this]
    conv_rhs => rw [← hf]
    apply List.filter_congr
    intro x _
    simp
  have hwe : ∀ x ∈ o.subs, withOnes o.subs e x = e x := fun x hx => if_pos hx
  have hwm : o.subs.map (withOnes o.subs e) = o.subs.map e := List.map_congr_left hwe
  have hden : ∀ σ, o.subs.map (pos (withOnes o.subs e) σ) = o.subs.map (pos e σ) := fun σ =>
    List.map_congr_left fun x hx => by unfold pos; rw [hwe x hx]
  by_cases h0 : ax = []
  · rw [if_pos h0]
    have hss : o.subs = subs := by
      rw [← hdrop, h0]
      unfold dropFrom
      simp [List.filter_true]
    exact ⟨o, rfl, ⟨by rw [hwm]; exact h.shape, by rw [hwm]; exact h.value, fun x hx => by rw [hwe x hx]; exact h.dims x hx⟩,
      hss, fun σ _ => by unfold den; rw [hden]⟩
  rw [if_neg h0]
  have hsort : ax.Pairwise (· < ·) := filter_sorted _ _
  have hlt : ∀ a ∈ ax, a < subs.length := fun a ha => List.mem_range.1 (List.mem_filter.1 ha).1
  have hone : ∀ j < (subs.map (withOnes o.subs e)).length, 0 + j ∈ ax → (subs.map (withOnes o.subs e)).getD j 0 = 1 := by
    intro j hj hm
    rw [Nat.zero_add] at hm
    rw [List.getD_eq_getElem _ _ hj, List.getElem_map]
    have := (List.mem_filter.1 hm).2
    rw [List.getD_eq_getElem _ _ (hlt j hm)] at this
    exact if_neg (by simpa using this)
  have hds : dropFrom ax 0 (subs.map (withOnes o.subs e)) = o.subs.map e := by
    rw [dropFrom_map, hdrop, hwm]
  have hlen : o.subs.length + ax.length = subs.length := by
    have h1 := dropFrom_length ax 0 subs
    have h2 := free_add ax subs.length hlt
    rw [hdrop] at h1
    rw [List.toFinset_card_of_nodup (hsort.imp fun h => by omega)] at h2
    omega
  have hins : insertOnes ax 0 (o.subs.length + ax.length) (o.subs.map e) = subs.map (withOnes o.subs e) := by
    have := insertOnes_dropFrom ax 0 _ hone
    rwa [hds, List.length_map, ← hlen] at this
  have hvl : o.value.shape.length = o.subs.length := by rw [h.value]; simp
  have hexp : expandDims o.shape ax = subs.map (withOnes o.subs e) := by
    rw [expandDims_eq hsort (by rw [h.shape, List.length_map, hlen]; exact hlt), h.shape, List.length_map, hins]
  have hprod : o.value.shape.prod = (subs.map (withOnes o.subs e)).prod := by
    rw [← prod_dropFrom ax hone, hds, h.value]
  obtain ⟨y, hy⟩ := retag_ok' (x := o.value) hprod
  have hll : (lits ax).length = ax.length := by simp [lits]
  have hun : unsqueeze o.value (lits ax) = some y := by
    rw [unsqueeze_some]
    refine ⟨ax, lits_axes fun a ha => ?_, hsort.imp fun h => by omega, ?_⟩
    · rw [hvl, hll, hlen]; exact hlt a ha
    · rw [hvl, hll, h.value, hins]; exact hy
  refine ⟨⟨subs, subs.map (withOnes o.subs e), y⟩, ?_, ⟨rfl, retag_shape hy, ?_⟩, rfl, ?_⟩
  · rw [hexp, typed_some hun (retag_shape hy)]
    rfl
  · intro x _
    unfold withOnes
    split
    · rename_i hx; exact h.dims x hx
    · exact .inl rfl
  · intro σ hσ
    show y.get (subs.map _) = _
    unfold den
    refine retag_get' hy ?_
    have hin : InBounds (subs.map (withOnes o.subs e)) (subs.map (pos (withOnes o.subs e) σ)) := by
      refine map_inBounds fun x _ => pos_lt (D := D) ?_ (hσ x)
      unfold withOnes
      split
      · rename_i hx; exact h.dims x hx
      · exact .inl rfl
    rw [← (rowMajor_dropFrom ax hin hone).2, hds, dropFrom_map, hdrop, hden, h.value]

/-! ### Broadcasting -/

/-- The extents of the broadcast of two values. -/
def both (e1 e2 : Char → ℕ) (x : Char) : ℕ := if e1 x = 1 then e2 x else e1 x

theorem bdims_map {e1 e2 : Char → ℕ} : ∀ {subs : List Char}, (∀ x ∈ subs, e1 x = 1 ∨ e2 x = 1 ∨ e1 x = e2 x) →
    bdims (subs.map e1) (subs.map e2) = some (subs.map (both e1 e2))
  | [], _ => rfl
  | x :: subs, h => by
    have hb : bdim (e1 x) (e2 x) = some (both e1 e2 x) := by
      unfold bdim both
      rcases h x (by simp) with h1 | h1 | h1
      · by_cases h2 : e1 x = e2 x
        · rw [if_pos h2, if_pos h1, h2]
        · rw [if_neg h2, if_pos h1, if_pos h1]
      · by_cases h2 : e1 x = 1
        · rw [if_pos (h2.trans h1.symm), if_pos h2, h2, h1]
        · rw [if_neg (by rw [h1]; exact h2), if_neg h2, if_pos h1, if_neg h2]
      · rw [if_pos h1]
        split
        · rw [h1]
        · rfl
    rw [List.map_cons, List.map_cons, bdims, hb, bdims_map fun y hy => h y (by simp [hy])]
    rfl

theorem bshape_map {e1 e2 : Char → ℕ} {subs : List Char} (h : ∀ x ∈ subs, e1 x = 1 ∨ e2 x = 1 ∨ e1 x = e2 x) :
    bshape (subs.map e1) (subs.map e2) = some (subs.map (both e1 e2)) := by
  unfold bshape
  have h1 : ∀ f : Char → ℕ, padOnes (max (subs.map e1).length (subs.map e2).length) (subs.map f) = subs.map f := by
    intro f
    simp [padOnes]
  rw [h1, h1, bdims_map h]

theorem bshape_map_append {e1 e2 : Char → ℕ} {un subs : List Char} (hd : ∀ x ∈ un, e2 x = 1)
    (h : ∀ x ∈ subs, e1 x = 1 ∨ e2 x = 1 ∨ e1 x = e2 x) :
    bshape ((un ++ subs).map e1) (subs.map e2) = some ((un ++ subs).map (both e1 e2)) := by
  have h1 := bshape_map (e1 := e1) (e2 := e2) (subs := un ++ subs) (by
    intro x hx
    rcases List.mem_append.1 hx with hx | hx
    · exact .inr (.inl (hd x hx))
    · exact h x hx)
  rw [← h1]
  unfold bshape
  congr 1
  · simp [padOnes]
  · have : un.map e2 = List.replicate un.length 1 := by
      rw [List.eq_replicate_iff]
      refine ⟨by simp, fun b hb => ?_⟩
      obtain ⟨x, hx, rfl⟩ := List.mem_map.1 hb
      exact hd x hx
    simp [padOnes, this]

theorem bidx_map (e g : Char → ℕ) (un subs : List Char) :
    bidx (subs.map e) ((un ++ subs).map g) = subs.map fun x => if e x = 1 then 0 else g x := by
  unfold bidx
  have : ((un ++ subs).map g).drop (((un ++ subs).map g).length - (subs.map e).length) = subs.map g := by
    rw [List.map_append, List.length_append, List.length_map, List.length_map, List.length_map, Nat.add_sub_cancel]
    exact List.drop_left' (by simp)
  rw [this, List.zipWith_map, List.zipWith_self]

theorem pos_both_left {e1 e2 σ : Char → ℕ} {x : Char} : (if e1 x = 1 then 0 else pos (both e1 e2) σ x) = pos e1 σ x := by
  unfold pos both
  by_cases h : e1 x = 1
  · simp [h]
  · simp [h]

theorem pos_both_right {e1 e2 σ : Char → ℕ} {x : Char} (h : e1 x = 1 ∨ e2 x = 1 ∨ e1 x = e2 x) :
    (if e2 x = 1 then 0 else pos (both e1 e2) σ x) = pos e2 σ x := by
  unfold pos both
  by_cases h1 : e1 x = 1
  · by_cases h2 : e2 x = 1
    · simp [h2]
    · simp [h1, h2]
  · by_cases h2 : e2 x = 1
    · simp [h2]
    · have := (h.resolve_left h1).resolve_left h2
      simp [h1, h2]

theorem dims_compat {e1 e2 : Char → ℕ} {x : Char} (h1 : e1 x = 1 ∨ e1 x = D x) (h2 : e2 x = 1 ∨ e2 x = D x) :
    e1 x = 1 ∨ e2 x = 1 ∨ e1 x = e2 x := by
  rcases h1 with h1 | h1
  · exact .inl h1
  · rcases h2 with h2 | h2
    · exact .inr (.inl h2)
    · exact .inr (.inr (h1.trans h2.symm))

theorem both_dims {e1 e2 : Char → ℕ} {x : Char} (h1 : e1 x = 1 ∨ e1 x = D x) (h2 : e2 x = 1 ∨ e2 x = D x) :
    both e1 e2 x = 1 ∨ both e1 e2 x = D x := by
  unfold both
  split
  · exact h2
  · exact h1

/-- The product of two values. -/
theorem mul_spec [CommRing V] (hA : RingAlg A) {e1 e2 : Char → ℕ} {o1 o2 : Out V} (h1 : WF D e1 o1) (h2 : WF D e2 o2)
    (n1 : o1.subs.Nodup) (n2 : o2.subs.Nodup) :
    ∃ o' e', mul A o1 o2 = some o' ∧ WF D e' o' ∧ o'.subs.Nodup ∧ (∀ x, x ∈ o'.subs ↔ x ∈ o1.subs ∨ x ∈ o2.subs) ∧
      (∀ x, e' x = both (withOnes o1.subs e1) (withOnes o2.subs e2) x) ∧
      ∀ σ, (∀ x, σ x < D x) → den e' o' σ = den e1 o1 σ * den e2 o2 σ := by
  unfold mul
  simp only
  set sh := o2.subs.filter (· ∈ o1.subs)
  set un := o1.subs.filter (· ∉ o2.subs)
  have hdis : ∀ x ∈ un, x ∉ o2.subs := fun x hx => by simpa using (List.mem_filter.1 hx).2
  have nun : un.Nodup := n1.filter _
  have nsh : sh.Nodup := n2.filter _
  have hp : (un ++ sh).Perm o1.subs := by
    refine (List.perm_ext_iff_of_nodup ?_ n1).2 fun x => ?_
    · refine List.nodup_append.2 ⟨nun, nsh, ?_⟩
      rintro x hx y hy rfl
      exact hdis x hx (List.mem_filter.1 hy).1
    · simp only [sh, un, List.mem_append, List.mem_filter, decide_eq_true_eq]
      tauto
  obtain ⟨p1, a1, a2, a3, a4⟩ := transposeTo_den h1 n1 hp
  rw [a1, Option.bind_some]
  have hmem : ∀ x, x ∈ p1.subs ↔ x ∈ o1.subs := fun x => by rw [a3]; exact hp.mem_iff
  have hf : (un ++ o2.subs).filter (· ∈ p1.subs) = p1.subs := by
    rw [List.filter_append, a3]
    congr 1
    · rw [List.filter_eq_self]
      intro x hx
      simp [hx]
    · apply List.filter_congr
      intro x hx
      rw [decide_eq_decide, ← a3, hmem]
  obtain ⟨q1, b1, b2, b3, b4⟩ := unsqueezeTo_spec a2 hf
  rw [b1, Option.bind_some]
  have hwe : withOnes p1.subs e1 = withOnes o1.subs e1 := by
    funext x
    unfold withOnes
    simp only [hmem]
  rw [hwe] at b2 b4
  set f1 := withOnes o1.subs e1
  have hw2 : ∀ x ∈ o2.subs, withOnes o2.subs e2 x = e2 x := fun x hx => if_pos hx
  set f2 := withOnes o2.subs e2
  have m2 : o2.subs.map e2 = o2.subs.map f2 := List.map_congr_left fun x hx => (hw2 x hx).symm
  have hcomp : ∀ x ∈ o2.subs, f1 x = 1 ∨ f2 x = 1 ∨ f1 x = f2 x := fun x hx =>
    dims_compat (D := D) (b2.dims x (by rw [b3]; simp [hx])) (by rw [hw2 x hx]; exact h2.dims x hx)
  have hb := bshape_map_append (e1 := f1) (e2 := f2) (un := un) (subs := o2.subs)
    (fun x hx => if_neg (hdis x hx)) hcomp
  unfold mulAligned
  rw [b2.shape, h2.shape, b3, m2, hb, Option.bind_some]
  refine ⟨⟨un ++ o2.subs, (un ++ o2.subs).map (both f1 f2), build ((un ++ o2.subs).map (both f1 f2)) fun i =>
    A.bin .mul (q1.value.get (bidx q1.value.shape i)) (o2.value.get (bidx o2.value.shape i))⟩, both f1 f2, ?_,
    ⟨rfl, rfl, ?_⟩, ?_, ?_, fun _ => rfl, ?_⟩
  · rw [typed_some (s := (un ++ o2.subs).map (both f1 f2)) (v := build ((un ++ o2.subs).map (both f1 f2)) fun i =>
      A.bin .mul (q1.value.get (bidx q1.value.shape i)) (o2.value.get (bidx o2.value.shape i))) ?_ rfl]
    · rfl
    · unfold binary
      rw [b2.value, b3, h2.value, m2, hb]
      rfl
  · intro x hx
    have hx : x ∈ un ++ o2.subs := hx
    refine both_dims (b2.dims x (by rw [b3]; exact hx)) ?_
    by_cases hx2 : x ∈ o2.subs
    · rw [hw2 x hx2]; exact h2.dims x hx2
    · exact .inl (if_neg hx2)
  · show (un ++ o2.subs).Nodup
    refine List.nodup_append.2 ⟨nun, n2, ?_⟩
    rintro x hx y hy rfl
    exact hdis x hx hy
  · intro x
    show x ∈ un ++ o2.subs ↔ _
    simp only [un, List.mem_append, List.mem_filter, decide_eq_true_eq]
    tauto
  · intro σ hσ
    unfold den
    show (build _ _).get ((un ++ o2.subs).map _) = _
    rw [get_build _ (map_inBounds fun x hx => pos_lt (D := D) (both_dims (b2.dims x (by rw [b3]; exact hx)) (by
      by_cases hx2 : x ∈ o2.subs
      · rw [hw2 x hx2]; exact h2.dims x hx2
      · exact .inl (if_neg hx2))) (hσ x)), hA.mul, b2.value, b3, h2.value, m2]
    have l1 := bidx_map f1 (pos (both f1 f2) σ) [] (un ++ o2.subs)
    rw [List.nil_append] at l1
    rw [l1, bidx_map]
    congr 1
    · have := b4 σ hσ
      rw [a4 σ hσ] at this
      unfold den at this
      rw [b3] at this
      rw [← this]
      congr 1
      exact List.map_congr_left fun x _ => pos_both_left
    · congr 1
      refine List.map_congr_left fun x hx => ?_
      rw [pos_both_right (hcomp x hx)]
      unfold pos
      rw [hw2 x hx]

end Verif.Einsum
