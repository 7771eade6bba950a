import Verif.Elems.ReduceModel
import Verif.Elems.ReduceSpec
import Verif.Elems.Lemmas
import Mathlib.Data.Int.ModEq

namespace Verif.Elems

variable {W : Type}

/-- The entries at the axes. -/
def selAxes (axes : List Nat) : Nat → List Nat → List Nat
  | _, [] => []
  | p, x :: xs => if p ∈ axes then x :: selAxes axes (p + 1) xs else selAxes axes (p + 1) xs

/-- Puts an index of the result and an index of the axes together. -/
def merge (fill : Option Nat) (axes : List Nat) : Nat → List Nat → List Nat → List Nat → List Nat
  | _, [], _, _ => []
  | p, _ :: ds, o, a =>
    if p ∈ axes then a.headD 0 :: merge fill axes (p + 1) ds (if fill.isSome then o.tail else o) a.tail
    else o.headD 0 :: merge fill axes (p + 1) ds o.tail a

theorem project_congr {fill : Option Nat} {axes axes' : List Nat} : ∀ (l : List Nat) (p : Nat),
    (∀ q, p ≤ q → (q ∈ axes ↔ q ∈ axes')) → project fill axes p l = project fill axes' p l
  | [], _, _ => rfl
  | x :: l, p, h => by
    rw [project, project, project_congr l (p + 1) (fun q hq => h q (by omega))]
    simp only [h p (le_refl p)]

theorem selAxes_congr {axes axes' : List Nat} : ∀ (l : List Nat) (p : Nat),
    (∀ q, p ≤ q → (q ∈ axes ↔ q ∈ axes')) → selAxes axes p l = selAxes axes' p l
  | [], _, _ => rfl
  | x :: l, p, h => by
    rw [selAxes, selAxes, selAxes_congr l (p + 1) (fun q hq => h q (by omega))]
    simp only [h p (le_refl p)]

theorem reduceDims_spec {keep : Bool} : ∀ (shape strides : List Nat) (p : Nat) (axes : List Nat),
    strides.length = shape.length → axes.Pairwise (· < ·) → (∀ a ∈ axes, p ≤ a) →
    reduceDims keep p axes shape strides =
      { axesShape := selAxes axes p shape
        axesStrides := selAxes axes p strides
        shape := project (if keep then some 1 else none) axes p shape
        strides := project (if keep then some 0 else none) axes p strides }
  | [], [], p, axes, _, _, _ => by simp [reduceDims, selAxes, project]
  | d :: ds, s :: ss, p, [], hl, _, _ => by
    rw [reduceDims, reduceDims_spec ds ss (p + 1) [] (by simpa using hl) List.Pairwise.nil (by simp)]
    simp [selAxes, project]
  | d :: ds, s :: ss, p, a :: as, hl, hp, ha => by
    have hp' := List.pairwise_cons.1 hp
    rw [reduceDims]
    by_cases hap : a = p
    · subst hap
      have hm : ∀ q, a + 1 ≤ q → (q ∈ as ↔ q ∈ a :: as) := by
        intro q hq
        simp only [List.mem_cons]
        constructor
        · exact fun h => .inr h
        · rintro (h | h)
          · omega
          · exact h
      rw [if_pos rfl, reduceDims_spec ds ss (a + 1) as (by simpa using hl) hp'.2
        (fun b hb => by have := hp'.1 b hb; omega)]
      simp only [selAxes, project, List.mem_cons_self, if_true, project_congr _ (a + 1) hm,
        selAxes_congr _ (a + 1) hm]
      cases keep <;> rfl
    · have hpa : p < a := by have := ha a (by simp); omega
      have hnot : p ∉ a :: as := by
        intro hc
        rcases List.mem_cons.1 hc with h | h
        · omega
        · have := hp'.1 p h; omega
      rw [if_neg hap, reduceDims_spec ds ss (p + 1) (a :: as) (by simpa using hl) hp (by
        intro b hb
        rcases List.mem_cons.1 hb with rfl | h
        · omega
        · have := hp'.1 b h; omega)]
      simp only [selAxes, project, hnot, if_false]
  | [], _ :: _, _, _, h, _, _ => by simp at h
  | _ :: _, [], _, _, h, _, _ => by simp at h

theorem flatMap_single {α : Type} {f : Nat → List α} {n x : Nat} (hx : x < n) (h : ∀ i < n, i ≠ x → f i = []) :
    (List.range n).flatMap f = f x := by
  induction n with
  | zero => omega
  | succ n ih =>
    rw [List.range_succ, List.flatMap_append]
    by_cases hxn : x = n
    · subst hxn
      have : (List.range x).flatMap f = [] := by
        rw [List.flatMap_eq_nil_iff]
        intro i hi
        exact h i (by have := List.mem_range.1 hi; omega) (by have := List.mem_range.1 hi; omega)
      simp [this]
    · rw [ih (by omega) (fun i hi hne => h i (by omega) hne)]
      simp [h n (by omega) (fun hc => hxn hc.symm)]

/-- The elements that are reduced together, in order. -/
theorem filter_project {keep : Bool} {axes : List Nat} : ∀ (shape : List Nat) (p : Nat) (o : List Nat),
    InBounds (project (if keep then some 1 else none) axes p shape) o →
    (allIndices shape).filter (fun j => decide (project (if keep then some 0 else none) axes p j = o)) =
      (allIndices (selAxes axes p shape)).map
        (merge (if keep then some 0 else none) axes p shape o)
  | [], p, o, h => by
    simp only [project, inBounds_nil_left] at h
    subst h
    simp [allIndices, project, merge, selAxes]
  | d :: ds, p, o, h => by
    rw [allIndices, List.filter_flatMap]
    by_cases hp : p ∈ axes
    · rw [selAxes, if_pos hp, allIndices, List.map_flatMap]
      rw [project, if_pos hp] at h
      cases keep with
      | false =>
        simp only [Bool.false_eq_true, if_false] at h ⊢
        congr 1
        funext i
        have ih := filter_project (keep := false) (axes := axes) ds (p + 1) o (by simpa using h)
        simp only [Bool.false_eq_true, if_false] at ih
        rw [List.filter_map, List.map_map]
        have e1 : ((fun j => decide (project none axes p j = o)) ∘ (i :: ·)) =
            fun j => decide (project none axes (p + 1) j = o) := by
          funext j
          simp [project, hp]
        have e2 : (merge none axes p (d :: ds) o ∘ (i :: ·)) = (i :: ·) ∘ merge none axes (p + 1) ds o := by
          funext a
          simp [merge, hp]
        rw [e1, e2, ih, List.map_map]
      | true =>
        simp only [if_true] at h ⊢
        obtain ⟨x, o', rfl⟩ : ∃ x o', o = x :: o' := by
          cases o with
          | nil => simp at h
          | cons x o' => exact ⟨x, o', rfl⟩
        obtain ⟨hx, ho⟩ := inBounds_cons.1 h
        have hx0 : x = 0 := by omega
        subst hx0
        congr 1
        funext i
        have ih := filter_project (keep := true) (axes := axes) ds (p + 1) o' (by simpa using ho)
        simp only [if_true] at ih
        rw [List.filter_map, List.map_map]
        have e1 : ((fun j => decide (project (some 0) axes p j = 0 :: o')) ∘ (i :: ·)) =
            fun j => decide (project (some 0) axes (p + 1) j = o') := by
          funext j
          simp [project, hp]
        have e2 : (merge (some 0) axes p (d :: ds) (0 :: o') ∘ (i :: ·)) =
            (i :: ·) ∘ merge (some 0) axes (p + 1) ds o' := by
          funext a
          simp [merge, hp]
        rw [e1, e2, ih, List.map_map]
    · rw [selAxes, if_neg hp]
      rw [project, if_neg hp] at h
      obtain ⟨x, o', rfl⟩ : ∃ x o', o = x :: o' := by
        cases o with
        | nil => simp at h
        | cons x o' => exact ⟨x, o', rfl⟩
      obtain ⟨hx, ho⟩ := inBounds_cons.1 h
      have ih := filter_project (keep := keep) (axes := axes) ds (p + 1) o' ho
      rw [flatMap_single hx]
      · rw [List.filter_map]
        have e1 : ((fun j => decide (project (if keep then some 0 else none) axes p j = x :: o')) ∘ (x :: ·)) =
            fun j => decide (project (if keep then some 0 else none) axes (p + 1) j = o') := by
          funext j
          simp [project, hp]
        have e2 : merge (if keep then some 0 else none) axes p (d :: ds) (x :: o') =
            (x :: ·) ∘ merge (if keep then some 0 else none) axes (p + 1) ds o' := by
          funext a
          simp [merge, hp]
        rw [e1, e2, ih, List.map_map]
      · intro i _ hi
        rw [List.filter_eq_nil_iff]
        intro j hj
        obtain ⟨j', -, rfl⟩ := List.mem_map.1 hj
        simp [project, hp, hi]

theorem merge_pos {keep : Bool} {axes : List Nat} : ∀ (shape strides : List Nat) (p : Nat) (o a : List Nat),
    strides.length = shape.length →
    InBounds (project (if keep then some 1 else none) axes p shape) o →
    InBounds (selAxes axes p shape) a →
    InBounds shape (merge (if keep then some 0 else none) axes p shape o a) ∧
    posN (merge (if keep then some 0 else none) axes p shape o a) strides =
      posN o (project (if keep then some 0 else none) axes p strides) + posN a (selAxes axes p strides)
  | [], [], p, o, a, _, _, _ => by
    refine ⟨by simp [merge], ?_⟩
    cases o <;> cases a <;> simp [merge, posN, project, selAxes]
  | d :: ds, s :: ss, p, o, a, hl, ho, ha => by
    have hl' : ss.length = ds.length := by simpa using hl
    by_cases hp : p ∈ axes
    · rw [selAxes, if_pos hp] at ha
      rw [project, if_pos hp] at ho
      obtain ⟨i, a', rfl⟩ : ∃ x o', a = x :: o' := by
        cases a with
        | nil => simp at ha
        | cons x o' => exact ⟨x, o', rfl⟩
      obtain ⟨hi, ha'⟩ := inBounds_cons.1 ha
      cases keep with
      | false =>
        simp only [Bool.false_eq_true, if_false] at ho ⊢
        have ih := merge_pos (keep := false) (axes := axes) ds ss (p + 1) o a' hl' (by simpa using ho) ha'
        simp only [Bool.false_eq_true, if_false] at ih
        simp only [merge, hp, if_true, List.headD_cons, Option.isSome_none, Bool.false_eq_true, if_false,
          List.tail_cons, inBounds_cons, posN, project, selAxes, ih.1, hi, and_self, true_and, ih.2, Option.toList_none, List.nil_append]
        omega
      | true =>
        simp only [if_true] at ho ⊢
        obtain ⟨x, o', rfl⟩ : ∃ x o', o = x :: o' := by
          cases o with
          | nil => simp at ho
          | cons x o' => exact ⟨x, o', rfl⟩
        obtain ⟨hx, ho'⟩ := inBounds_cons.1 ho
        have ih := merge_pos (keep := true) (axes := axes) ds ss (p + 1) o' a' hl' (by simpa using ho') ha'
        simp only [if_true] at ih
        simp only [merge, hp, if_true, List.headD_cons, Option.isSome_some,
          List.tail_cons, inBounds_cons, posN, project, selAxes, ih.1, hi, and_self, true_and, ih.2,
          Option.toList_some, List.cons_append, List.nil_append]
        omega
    · rw [selAxes, if_neg hp] at ha
      rw [project, if_neg hp] at ho
      obtain ⟨x, o', rfl⟩ : ∃ x o', o = x :: o' := by
        cases o with
        | nil => simp at ho
        | cons x o' => exact ⟨x, o', rfl⟩
      obtain ⟨hx, ho'⟩ := inBounds_cons.1 ho
      have ih := merge_pos (keep := keep) (axes := axes) ds ss (p + 1) o' a hl' ho' ha
      simp only [merge, hp, if_false, List.headD_cons, List.tail_cons, inBounds_cons, posN, project, selAxes,
        ih.1, hx, and_self, true_and, ih.2]
      omega
  | [], _ :: _, _, _, _, h, _, _ => by simp at h
  | _ :: _, [], _, _, _, h, _, _ => by simp at h

theorem foldlM_some {α β : Type} {f : β → α → Option β} {g : β → α → β} : ∀ (l : List α) (b : β),
    (∀ a ∈ l, ∀ b, f b a = some (g b a)) → l.foldlM f b = some (l.foldl g b)
  | [], _, _ => rfl
  | a :: l, b, h => by
    rw [List.foldlM_cons, h a (by simp)]
    exact foldlM_some l _ (fun x hx => h x (by simp [hx]))

theorem selAxes_prod_pos {axes : List Nat} : ∀ (shape : List Nat) (p : Nat), 0 < shape.prod →
    0 < (selAxes axes p shape).prod
  | [], _, _ => by simp [selAxes]
  | d :: ds, p, h => by
    rw [List.prod_cons] at h
    have h1 := Nat.pos_of_mul_pos_right h
    have h2 := selAxes_prod_pos (axes := axes) ds (p + 1) (Nat.pos_of_mul_pos_left h)
    rw [selAxes]
    split
    · rw [List.prod_cons]; exact Nat.mul_pos h1 h2
    · exact h2

theorem selAxes_length {axes : List Nat} : ∀ (a b : List Nat) (p : Nat), a.length = b.length →
    (selAxes axes p a).length = (selAxes axes p b).length
  | [], [], _, _ => rfl
  | x :: a, y :: b, p, h => by
    have := selAxes_length (axes := axes) a b (p + 1) (by simpa using h)
    rw [selAxes, selAxes]
    split <;> simp [this]
  | [], _ :: _, _, h => by simp at h
  | _ :: _, [], _, h => by simp at h

theorem project_length {axes : List Nat} {f g : Option Nat} (hfg : f.isSome = g.isSome) :
    ∀ (a b : List Nat) (p : Nat), a.length = b.length →
    (project f axes p a).length = (project g axes p b).length
  | [], [], _, _ => rfl
  | x :: a, y :: b, p, h => by
    have := project_length (axes := axes) hfg a b (p + 1) (by simpa using h)
    rw [project, project]
    split
    · cases f <;> cases g <;> simp_all
    · simp [this]
  | [], _ :: _, _, h => by simp at h
  | _ :: _, [], _, h => by simp at h

theorem project_nil {f : Option Nat} : ∀ (l : List Nat) (p : Nat), project f [] p l = l
  | [], _ => rfl
  | x :: l, p => by simp [project, project_nil l]

/-- The values reduced together, and their reduction. -/
theorem reduceOne_spec {e : Elms W} (h : WF e) (hne : 0 < e.shape.prod) (red : W → W → W) (keep : Bool)
    (axes o : List Nat)
    (ho : InBounds (project (if keep then some 1 else none) axes 0 e.shape) o) :
    ∃ (v : W) (vs : List W), ((allIndices e.shape).filter (fun j =>
        decide (project (if keep then some 0 else none) axes 0 j = o))).map (value e) = some v :: vs.map some ∧
      reduceOne red e.bufWide (stridesRange (selAxes axes 0 e.shape) (pack1 (selAxes axes 0 e.strides)))
        (posN o (project (if keep then some 0 else none) axes 0 e.strides) : Nat) = some (vs.foldl red v) := by
  have hl := h.len
  rw [filter_project e.shape 0 o ho, List.map_map]
  rw [stridesRange_spec _ _ (by simp [pack1]; exact selAxes_length _ _ _ hl)]
  have hpos := selAxes_prod_pos (axes := axes) e.shape 0 hne
  set S := selAxes axes 0 e.shape with hS
  obtain ⟨n, hn⟩ : ∃ n, S.prod = n + 1 := ⟨S.prod - 1, by omega⟩
  have hall : allIndices S = unrank S 0 :: ((List.range' 1 n).map (unrank S)) := by
    rw [allIndices_eq_map_unrank, hn, List.range_eq_range', List.range'_succ]
    rfl
  -- every element that takes part has a value
  have hval : ∀ a, InBounds S a → ∃ v, value e (merge (if keep then some 0 else none) axes 0 e.shape o a) = some v ∧
      getZ e.bufWide ((posN o (project (if keep then some 0 else none) axes 0 e.strides) : Nat) +
        (posN a (selAxes axes 0 e.strides) : Nat)) = some v := by
    intro a ha
    obtain ⟨m1, m2⟩ := merge_pos (keep := keep) (axes := axes) e.shape e.strides 0 o a hl ho ha
    obtain ⟨v, q1, q2⟩ := h.value_eq m1
    refine ⟨_, q2, ?_⟩
    rw [← Nat.cast_add, ← m2, getZ_nat, ← h.value_eq' m1, q2]
  have hin : ∀ a ∈ allIndices S, InBounds S a := fun a ha => mem_allIndices.1 ha
  have : Nonempty W := by
    obtain ⟨v, -⟩ := hval (unrank S 0) (unrank_inBounds (by omega))
    exact ⟨v⟩
  choose! g hg1 hg2 using hval
  have hmap : (allIndices S).map (value e ∘ merge (if keep then some 0 else none) axes 0 e.shape o) =
      (allIndices S).map (fun a => some (g a)) := by
    apply List.map_congr_left
    intro a ha
    exact hg1 a (hin a ha)
  rw [hmap, hall]
  have hz0 : InBounds S (unrank S 0) := unrank_inBounds (by omega)
  refine ⟨g (unrank S 0), ((List.range' 1 n).map (unrank S)).map g, by simp, ?_⟩
  rw [List.map_cons]
  unfold reduceOne
  simp only
  have h0 := hg2 _ hz0
  rw [unrank_zero, posN_zeros] at h0
  simp only [Nat.cast_zero, add_zero] at h0
  rw [unrank_zero, h0]
  simp only [Option.bind_some]
  rw [foldlM_some (g := fun d (v : IdxOffs Unit) => red d (g v.index))]
  · simp only [List.foldl_map]
  · intro v hv d
    obtain ⟨a, ha, rfl⟩ := List.mem_map.1 hv
    have hb : InBounds S a := hin a (by rw [hall]; simp [ha])
    have := hg2 a hb
    simp only [pack1_map, pos_map_nat]
    rw [this]
    rfl

theorem reduce_spec {e : Elms W} (h : WF e) (hne : 0 < e.shape.prod) (red : W → W → W) (keep : Bool)
    (axes : List Nat) (hnd : axes.Nodup) :
    ∃ r, reduce red e axes keep = some r ∧ r.shape = project (if keep then some 1 else none) axes 0 e.shape ∧
      WF r ∧ ∀ o, InBounds r.shape o → ∃ (v : W) (vs : List W), ((allIndices e.shape).filter (fun j =>
        decide (project (if keep then some 0 else none) axes 0 j = o))).map (value e) = some v :: vs.map some ∧
        value r o = some (vs.foldl red v) := by
  unfold reduce
  rw [if_neg (by omega)]
  by_cases hax : axes = []
  · subst hax
    rw [if_pos rfl]
    refine ⟨e, rfl, (project_nil _ _).symm, h, ?_⟩
    intro o ho
    simp only [project_nil]
    obtain ⟨v, h1, h2⟩ := h.value_eq ho
    refine ⟨e.tr v, [], ?_, h2⟩
    have : (allIndices e.shape).filter (fun j => decide (j = o)) = [o] := by
      have hn := (nodup_allIndices e.shape)
      have hc : (allIndices e.shape).count o = 1 :=
        List.count_eq_one_of_mem hn (mem_allIndices.2 ho)
      have := List.filter_eq (l := allIndices e.shape) o
      rw [hc] at this
      simpa using this
    rw [this]
    simp [h2]
  · rw [if_neg hax, if_neg (by simpa using hnd)]
    have hsorted : (axes.insertionSort (· ≤ ·)).Pairwise (· < ·) := by
      have h1 := List.pairwise_insertionSort (· ≤ ·) axes
      have h2 : (axes.insertionSort (· ≤ ·)).Nodup := (List.perm_insertionSort _ axes).nodup_iff.2 hnd
      exact (h1.and h2).imp (fun ⟨a, b⟩ => lt_of_le_of_ne a b)
    have hmem : ∀ q, 0 ≤ q → (q ∈ axes.insertionSort (· ≤ ·) ↔ q ∈ axes) :=
      fun q _ => (List.perm_insertionSort _ axes).mem_iff
    simp only [reduceDims_spec e.shape e.strides 0 _ h.len hsorted (by simp), project_congr _ 0 hmem,
      selAxes_congr _ 0 hmem]
    set R := project (if keep then some 1 else none) axes 0 e.shape with hR
    have hone := reduceOne_spec h hne red keep axes
    have : Nonempty W := by
      obtain ⟨v, -⟩ := h.value_eq (unrank_inBounds hne)
      exact ⟨e.tr v⟩
    choose! v vs hv1 hv2 using hone
    have hm : ((stridesRange R (pack1 (project (if keep then some 0 else none) axes 0 e.strides))).mapM fun w =>
        reduceOne red e.bufWide (stridesRange (selAxes axes 0 e.shape) (pack1 (selAxes axes 0 e.strides)))
          (w.offs ())) = some ((allIndices R).map fun o => (vs o).foldl red (v o)) := by
      rw [stridesRange_spec R _ (by
        simp only [pack1, List.length_map]
        exact project_length (by cases keep <;> rfl) _ _ _ h.len), mapM_map]
      apply mapM_some
      intro o ho
      have := hv2 o (mem_allIndices.1 ho)
      simp only [Function.comp, pack1_map, pos_map_nat]
      exact this
    rw [hm]
    refine ⟨_, rfl, rfl, wf_fromWideNums _ _ (by simp [length_allIndices]), ?_⟩
    intro o ho
    refine ⟨v o, vs o, hv1 o ho, ?_⟩
    rw [value_fromWideNums]
    exact getElem?_map_allIndices _ ho


/-! ## matrix products -/

theorem posN_set : ∀ (idx st : List Nat) (i k : Nat), idx.length = st.length → i < st.length →
    posN idx (st.set i 0) + k * st.getD i 0 = posN (idx.set i k) st
  | x :: xs, s :: ss, 0, k, _, _ => by simp [posN]; omega
  | x :: xs, s :: ss, i + 1, k, hl, hi => by
    have := posN_set xs ss i k (by simpa using hl) (by simpa using hi)
    simp only [List.set_cons_succ, posN, List.getD_cons_succ]
    omega
  | [], [], _, _, _, h => by simp at h
  | [], _ :: _, _, _, h, _ => by simp at h
  | _ :: _, [], _, _, h, _ => by simp at h

theorem posN_append' {a c b d : List Nat} (h : a.length = c.length) :
    posN (a ++ b) (c ++ d) = posN a c + posN b d := by
  induction a generalizing c with
  | nil =>
    have : c = [] := List.length_eq_zero_iff.1 (by simpa using h.symm)
    subst this
    simp [posN]
  | cons x xs ih =>
    cases c with
    | nil => simp at h
    | cons y ys =>
      simp only [List.cons_append, posN, ih (by simpa using h)]
      omega

theorem rowMajor_append' {s i t j : List Nat} (h : i.length = s.length) :
    rowMajor (s ++ t) (i ++ j) = rowMajor s i * t.prod + rowMajor t j := by
  induction s generalizing i with
  | nil =>
    have : i = [] := List.length_eq_zero_iff.1 (by simpa using h)
    subst this
    simp [rowMajor]
  | cons d ds ih =>
    cases i with
    | nil => simp at h
    | cons x xs =>
      simp only [List.cons_append, rowMajor, ih (by simpa using h), List.prod_append]
      ring

theorem inBounds_append' {s i t j : List Nat} (h1 : InBounds s i) (h2 : InBounds t j) :
    InBounds (s ++ t) (i ++ j) := List.rel_append h1 h2

/-- The shape of the left operand of a product: a vector, or a batch of matrices. -/
def IsLhs (shape lb : List Nat) (M K : Nat) : Prop :=
  (shape = [K] ∧ lb = [] ∧ M = 1) ∨ shape = lb ++ [M, K]

/-- The shape of the right operand. -/
def IsRhs (shape rb : List Nat) (K N : Nat) : Prop :=
  (shape = [K] ∧ rb = [] ∧ N = 1) ∨ shape = rb ++ [K, N]

/-- The element of the left operand in row `m` and column `k` of batch `b`. -/
def lhsIdx (shape lb b : List Nat) (m k : Nat) : List Nat :=
  if shape.length = 1 then [k] else bIdx lb b ++ [m, k]

/-- The element of the right operand in row `k` and column `n` of batch `b`. -/
def rhsIdx (shape rb b : List Nat) (k n : Nat) : List Nat :=
  if shape.length = 1 then [k] else bIdx rb b ++ [k, n]

theorem bIdx_append2 {lb b : List Nat} {M K m k : Nat} (hb : lb.length ≤ b.length) (hm : m < M) (hk : k < K) :
    bIdx (lb ++ [M, K]) (b ++ [m, k]) = bIdx lb b ++ [m, k] := by
  unfold bIdx
  have e1 : (b ++ [m, k]).length - (lb ++ [M, K]).length = b.length - lb.length := by simp
  rw [e1, List.drop_append_of_le_length (by omega), List.zipWith_append (by simp; omega)]
  congr 1
  simp only [List.zipWith_cons_cons, List.zipWith_nil_right]
  congr 1
  · split <;> omega
  · congr 1
    split <;> omega

theorem dotLoop_spec (add mul : W → W → W) (lhs rhs : List W) (ls rs : Nat) (x y : Nat → W) :
    ∀ (n k : Nat) (lp rp : Nat) (acc : W),
    (∀ i < n, lhs[lp + i * ls]? = some (x (k + i)) ∧ rhs[rp + i * rs]? = some (y (k + i))) →
    dotLoop add mul lhs rhs ls rs n (lp : Int) (rp : Int) acc =
      some ((List.range' k n).foldl (fun a i => add a (mul (x i) (y i))) acc)
  | 0, _, _, _, _, _ => rfl
  | n + 1, k, lp, rp, acc, h => by
    have h0 := h 0 (by omega)
    simp only [Nat.zero_mul, Nat.add_zero] at h0
    rw [dotLoop, getZ_nat, getZ_nat, h0.1, h0.2]
    simp only [Option.bind_some]
    have := dotLoop_spec add mul lhs rhs ls rs x y n (k + 1) (lp + ls) (rp + rs)
      (add acc (mul (x k) (y k))) (by
        intro i hi
        have := h (i + 1) (by omega)
        rw [show lp + ls + i * ls = lp + (i + 1) * ls by ring, show rp + rs + i * rs = rp + (i + 1) * rs by ring,
          show k + 1 + i = k + (i + 1) by omega]
        exact this)
    rw [Nat.cast_add, Nat.cast_add] at this
    rw [this, List.range'_succ]
    rfl

theorem lhs_read {e : Elms W} (h : WF e) {lb batch b : List Nat} {M K m k n : Nat}
    (hs : IsLhs e.shape lb M K) (hb : BroadcastTo lb batch) (hi : InBounds batch b) (hm : m < M) (hk : k < K)
    (ls : List Nat)
    (hls : ls = if e.shape.length = 1 then
        (expandStrides e.strides (batch.length + 1)).take ((expandStrides e.strides (batch.length + 1)).length - 1) ++
          0 :: (expandStrides e.strides (batch.length + 1)).drop
            ((expandStrides e.strides (batch.length + 1)).length - 1)
      else expandStrides e.strides (batch.length + 2)) :
    ls.length = batch.length + 2 ∧ InBounds e.shape (lhsIdx e.shape lb b m k) ∧
    e.bufWide[posN (b ++ [m, n]) (ls.set (batch.length + 1) 0) + k * ls.getD (batch.length + 1) 0]? =
      value e (lhsIdx e.shape lb b m k) := by
  have hbl := hi.length
  rcases hs with ⟨hs, rfl, rfl⟩ | hs
  · have hl1 : e.shape.length = 1 := by rw [hs]; rfl
    have hs1 : e.strides.length = 1 := by rw [h.len, hl1]
    have hel := expandStrides_length (strides := e.strides) (n := batch.length + 1) (by omega)
    rw [if_pos hl1, hel, Nat.add_sub_cancel] at hls
    have hlen : ls.length = batch.length + 2 := by rw [hls]; simp [hel]
    have hin : InBounds e.shape (lhsIdx e.shape [] b m k) := by
      unfold lhsIdx
      rw [if_pos hl1, hs]
      simp [hk]
    refine ⟨hlen, hin, ?_⟩
    rw [posN_set _ _ _ _ (by simp [hlen, hbl]) (by omega), h.value_eq' hin]
    have e1 : (b ++ [m, n]).set (batch.length + 1) k = b ++ [m, k] := by
      rw [List.set_append_right _ _ (by omega), hbl]
      simp
    have hm0 : m = 0 := by omega
    subst hm0
    rw [e1, hls, posN_append' (by simp [hel, hbl])]
    have e2 : posN [0, k] (0 :: (expandStrides e.strides (batch.length + 1)).drop batch.length) =
        posN [k] ((expandStrides e.strides (batch.length + 1)).drop batch.length) := by simp [posN]
    rw [e2, ← posN_append' (by simp [hel, hbl]), List.take_append_drop,
      posN_bIdx (s := e.shape) h.len (by simp [hbl]) (by omega) h.one]
    congr 2
    unfold lhsIdx bIdx
    rw [if_pos hl1, hs]
    simp only [List.length_append, List.length_cons, List.length_nil, Nat.zero_add, Nat.add_sub_cancel,
      List.drop_left, List.zipWith_cons_cons, List.zipWith_nil_right]
    congr 1
    split <;> omega
  · have hl1 : ¬ e.shape.length = 1 := by rw [hs]; simp
    have hll : e.shape.length = lb.length + 2 := by rw [hs]; simp
    have hle := hb.1
    have hel := expandStrides_length (strides := e.strides) (n := batch.length + 2) (by rw [h.len]; omega)
    rw [if_neg hl1] at hls
    have hlen : ls.length = batch.length + 2 := by rw [hls]; simp [hel]
    have hin : InBounds e.shape (lhsIdx e.shape lb b m k) := by
      unfold lhsIdx
      rw [if_neg hl1, hs]
      exact inBounds_append' (hb.inBounds hi) (by simp [hm, hk])
    refine ⟨hlen, hin, ?_⟩
    rw [posN_set _ _ _ _ (by simp [hlen, hbl]) (by omega), h.value_eq' hin]
    have e1 : (b ++ [m, n]).set (batch.length + 1) k = b ++ [m, k] := by
      rw [List.set_append_right _ _ (by omega), hbl]
      simp
    rw [e1, hls, posN_bIdx (s := e.shape) h.len (by simp [hbl]) (by omega) h.one]
    congr 2
    unfold lhsIdx
    rw [if_neg hl1, hs, bIdx_append2 (by omega) hm hk]

theorem rhs_read {e : Elms W} (h : WF e) {rb batch b : List Nat} {N K m k n : Nat}
    (hs : IsRhs e.shape rb K N) (hb : BroadcastTo rb batch) (hi : InBounds batch b) (hn : n < N) (hk : k < K)
    (rs : List Nat)
    (hrs : rs = if e.shape.length = 1 then expandStrides e.strides (batch.length + 1) ++ [0]
      else expandStrides e.strides (batch.length + 2)) :
    rs.length = batch.length + 2 ∧ InBounds e.shape (rhsIdx e.shape rb b k n) ∧
    e.bufWide[posN (b ++ [m, n]) (rs.set batch.length 0) + k * rs.getD batch.length 0]? =
      value e (rhsIdx e.shape rb b k n) := by
  have hbl := hi.length
  have e1 : (b ++ [m, n]).set batch.length k = b ++ [k, n] := by
    rw [List.set_append_right _ _ (by omega), hbl]
    simp
  rcases hs with ⟨hs, rfl, rfl⟩ | hs
  · have hl1 : e.shape.length = 1 := by rw [hs]; rfl
    have hs1 : e.strides.length = 1 := by rw [h.len, hl1]
    have hel := expandStrides_length (strides := e.strides) (n := batch.length + 1) (by omega)
    rw [if_pos hl1] at hrs
    have hlen : rs.length = batch.length + 2 := by rw [hrs]; simp [hel]
    have hin : InBounds e.shape (rhsIdx e.shape [] b k n) := by
      unfold rhsIdx
      rw [if_pos hl1, hs]
      simp [hk]
    refine ⟨hlen, hin, ?_⟩
    rw [posN_set _ _ _ _ (by simp [hlen, hbl]) (by omega), h.value_eq' hin]
    rw [e1, hrs, show b ++ [k, n] = (b ++ [k]) ++ [n] by simp, posN_append' (by simp [hel, hbl])]
    have e2 : posN [n] [0] = 0 := by simp [posN]
    rw [e2, Nat.add_zero, posN_bIdx (s := e.shape) h.len (by simp [hbl]) (by omega) h.one]
    congr 2
    unfold rhsIdx bIdx
    rw [if_pos hl1, hs]
    simp only [List.length_append, List.length_cons, List.length_nil, Nat.zero_add, Nat.add_sub_cancel,
      List.drop_left, List.zipWith_cons_cons, List.zipWith_nil_right]
    congr 1
    split <;> omega
  · have hl1 : ¬ e.shape.length = 1 := by rw [hs]; simp
    have hll : e.shape.length = rb.length + 2 := by rw [hs]; simp
    have hle := hb.1
    have hel := expandStrides_length (strides := e.strides) (n := batch.length + 2) (by rw [h.len]; omega)
    rw [if_neg hl1] at hrs
    have hlen : rs.length = batch.length + 2 := by rw [hrs]; simp [hel]
    have hin : InBounds e.shape (rhsIdx e.shape rb b k n) := by
      unfold rhsIdx
      rw [if_neg hl1, hs]
      exact inBounds_append' (hb.inBounds hi) (by simp [hn, hk])
    refine ⟨hlen, hin, ?_⟩
    rw [posN_set _ _ _ _ (by simp [hlen, hbl]) (by omega), h.value_eq' hin]
    rw [e1, hrs, posN_bIdx (s := e.shape) h.len (by simp [hbl]) (by omega) h.one]
    congr 2
    unfold rhsIdx
    rw [if_neg hl1, hs, bIdx_append2 (by omega) hk hn]

theorem lhs_len {e : Elms W} (h : WF e) {lb batch : List Nat} {M K : Nat}
    (hs : IsLhs e.shape lb M K) (hb : BroadcastTo lb batch) :
    (if e.shape.length = 1 then
        (expandStrides e.strides (batch.length + 1)).take ((expandStrides e.strides (batch.length + 1)).length - 1) ++
          0 :: (expandStrides e.strides (batch.length + 1)).drop
            ((expandStrides e.strides (batch.length + 1)).length - 1)
      else expandStrides e.strides (batch.length + 2)).length = batch.length + 2 := by
  have hle := hb.1
  have hl := h.len
  split
  · rename_i h1
    have hel := expandStrides_length (strides := e.strides) (n := batch.length + 1) (by omega)
    simp [hel]
  · rename_i h1
    rcases hs with ⟨hs, -, -⟩ | hs
    · simp [hs] at h1
    · have : e.shape.length = lb.length + 2 := by rw [hs]; simp
      exact expandStrides_length (by omega)

theorem rhs_len {e : Elms W} (h : WF e) {rb batch : List Nat} {K N : Nat}
    (hs : IsRhs e.shape rb K N) (hb : BroadcastTo rb batch) :
    (if e.shape.length = 1 then expandStrides e.strides (batch.length + 1) ++ [0]
      else expandStrides e.strides (batch.length + 2)).length = batch.length + 2 := by
  have hle := hb.1
  have hl := h.len
  split
  · rename_i h1
    have hel := expandStrides_length (strides := e.strides) (n := batch.length + 1) (by omega)
    simp [hel]
  · rename_i h1
    rcases hs with ⟨hs, -, -⟩ | hs
    · simp [hs] at h1
    · have : e.shape.length = rb.length + 2 := by rw [hs]; simp
      exact expandStrides_length (by omega)

theorem inBounds_split2 {batch idx : List Nat} {M N : Nat} (h : InBounds (batch ++ [M, N]) idx) :
    ∃ b m n, idx = b ++ [m, n] ∧ InBounds batch b ∧ m < M ∧ n < N := by
  induction batch generalizing idx with
  | nil =>
    match idx, h with
    | [m, n], h =>
      simp only [List.nil_append, inBounds_cons, inBounds_nil, and_true] at h
      exact ⟨[], m, n, rfl, by simp, h.1, h.2⟩
    | [], h => simp at h
    | [_], h => simp at h
    | _ :: _ :: _ :: _, h => simp at h
  | cons d ds ih =>
    cases idx with
    | nil => simp at h
    | cons i is =>
      obtain ⟨h1, h2⟩ := inBounds_cons.1 h
      obtain ⟨b, m, n, rfl, hb, hm, hn⟩ := ih h2
      exact ⟨i :: b, m, n, rfl, by simp [h1, hb], hm, hn⟩

theorem isLhs_get {shape lb : List Nat} {M K : Nat} (h : IsLhs shape lb M K) :
    shape.length ≠ 0 ∧ (if shape.length = 1 then 1 else shape.getD (shape.length - 2) 0) = M ∧
      shape.getD (shape.length - 1) 0 = K := by
  rcases h with ⟨rfl, rfl, rfl⟩ | rfl
  · simp
  · simp [List.getElem?_append_right]

theorem isRhs_get {shape rb : List Nat} {N K : Nat} (h : IsRhs shape rb K N) :
    shape.length ≠ 0 ∧ (if shape.length = 1 then 1 else shape.getD (shape.length - 1) 0) = N ∧
      shape.getD (if shape.length = 1 then 0 else shape.length - 2) 0 = K := by
  rcases h with ⟨rfl, rfl, rfl⟩ | rfl
  · simp
  · simp [List.getElem?_append_right]

theorem matMul_spec {l r : Elms W} (hl : WF l) (hr : WF r) (zero : W) (add mul : W → W → W)
    {lb rb batch : List Nat} {M K N : Nat} (sl : IsLhs l.shape lb M K) (sr : IsRhs r.shape rb K N)
    (bl : BroadcastTo lb batch) (br : BroadcastTo rb batch) :
    ∃ o, matMul zero add mul l r batch = some o ∧ WF o ∧
      o.shape = batch ++ (if l.shape.length = 1 then [] else [M]) ++ (if r.shape.length = 1 then [] else [N]) ∧
      ∀ b m n, InBounds batch b → m < M → n < N → ∃ x y : Nat → W,
        (∀ k < K, value l (lhsIdx l.shape lb b m k) = some (x k) ∧
          value r (rhsIdx r.shape rb b k n) = some (y k)) ∧
        value o (b ++ (if l.shape.length = 1 then [] else [m]) ++ (if r.shape.length = 1 then [] else [n])) =
          some ((List.range K).foldl (fun acc k => add acc (mul (x k) (y k))) zero) := by
  obtain ⟨l0, lM, lK⟩ := isLhs_get sl
  obtain ⟨r0, rN, rK⟩ := isRhs_get sr
  unfold matMul
  simp only [lM, lK, rN, rK]
  rw [if_neg (by simp [l0, r0]), if_neg (by simp)]
  simp only [List.length_append, List.length_cons, List.length_nil, Nat.zero_add, Nat.add_succ_sub_one,
    Elms.expanded]
  have eL : (if l.shape.length = 1 then
        (expandStrides l.strides (if l.shape.length = 1 then batch.length + 1 else batch.length + 2)).take
          ((expandStrides l.strides (if l.shape.length = 1 then batch.length + 1 else batch.length + 2)).length - 1) ++
          0 :: (expandStrides l.strides (if l.shape.length = 1 then batch.length + 1 else batch.length + 2)).drop
            ((expandStrides l.strides (if l.shape.length = 1 then batch.length + 1 else batch.length + 2)).length - 1)
      else expandStrides l.strides (if l.shape.length = 1 then batch.length + 1 else batch.length + 2)) =
      if l.shape.length = 1 then
        (expandStrides l.strides (batch.length + 1)).take ((expandStrides l.strides (batch.length + 1)).length - 1) ++
          0 :: (expandStrides l.strides (batch.length + 1)).drop
            ((expandStrides l.strides (batch.length + 1)).length - 1)
      else expandStrides l.strides (batch.length + 2) := by
    split <;> rfl
  have eR : (if r.shape.length = 1 then
        expandStrides r.strides (if r.shape.length = 1 then batch.length + 1 else batch.length + 2) ++ [0]
      else expandStrides r.strides (if r.shape.length = 1 then batch.length + 1 else batch.length + 2)) =
      if r.shape.length = 1 then expandStrides r.strides (batch.length + 1) ++ [0]
      else expandStrides r.strides (batch.length + 2) := by
    split <;> rfl
  rw [eL, eR]
  set ls := (if l.shape.length = 1 then
        (expandStrides l.strides (batch.length + 1)).take ((expandStrides l.strides (batch.length + 1)).length - 1) ++
          0 :: (expandStrides l.strides (batch.length + 1)).drop
            ((expandStrides l.strides (batch.length + 1)).length - 1)
      else expandStrides l.strides (batch.length + 2)) with hls
  set rs := (if r.shape.length = 1 then expandStrides r.strides (batch.length + 1) ++ [0]
      else expandStrides r.strides (batch.length + 2)) with hrs
  have hll : ls.length = batch.length + 2 := lhs_len hl sl bl
  have hrl : rs.length = batch.length + 2 := rhs_len hr sr br
  have hpl : (pack2 (ls.set (batch.length + 1) 0) (rs.set batch.length 0)).length = (batch ++ [M, N]).length :=
    pack2_length (by simp [hll]) (by simp [hrl])
  -- one element of the result
  have key : ∀ b m n, InBounds batch b → m < M → n < N → ∃ x y : Nat → W,
      (∀ k < K, value l (lhsIdx l.shape lb b m k) = some (x k) ∧
        value r (rhsIdx r.shape rb b k n) = some (y k)) ∧
      dotLoop add mul l.bufWide r.bufWide (ls.getD (batch.length + 1) 0) (rs.getD batch.length 0) K
        (posN (b ++ [m, n]) (ls.set (batch.length + 1) 0) : Nat) (posN (b ++ [m, n]) (rs.set batch.length 0) : Nat)
        zero = some ((List.range K).foldl (fun acc k => add acc (mul (x k) (y k))) zero) := by
    intro b m n hb hm hn
    have hL : ∀ k, k < K → ∃ v : W, value l (lhsIdx l.shape lb b m k) = some v := by
      intro k hk
      exact hl.value_some (lhs_read (n := n) hl sl bl hb hm hk ls hls).2.1
    have hR : ∀ k, k < K → ∃ v : W, value r (rhsIdx r.shape rb b k n) = some v := by
      intro k hk
      exact hr.value_some (rhs_read (m := m) hr sr br hb hn hk rs hrs).2.1
    have : Nonempty W := ⟨zero⟩
    choose! x hx using hL
    choose! y hy using hR
    refine ⟨x, y, fun k hk => ⟨hx k hk, hy k hk⟩, ?_⟩
    rw [dotLoop_spec add mul _ _ _ _ x y K 0, List.range_eq_range']
    intro i hi
    rw [Nat.zero_add]
    exact ⟨(lhs_read (n := n) hl sl bl hb hm hi ls hls).2.2.trans (hx i hi),
      (rhs_read (m := m) hr sr br hb hn hi rs hrs).2.2.trans (hy i hi)⟩
  obtain ⟨o, h1, h2, h3⟩ := mapM_total (l := allIndices (batch ++ [M, N])) (f := fun idx =>
      dotLoop add mul l.bufWide r.bufWide (ls.getD (batch.length + 1) 0) (rs.getD batch.length 0) K
        (posN idx (ls.set (batch.length + 1) 0) : Nat) (posN idx (rs.set batch.length 0) : Nat) zero) (by
    intro idx hidx
    obtain ⟨b, m, n, rfl, hb, hm, hn⟩ := inBounds_split2 (mem_allIndices.1 hidx)
    obtain ⟨x, y, -, q⟩ := key b m n hb hm hn
    exact ⟨_, q⟩)
  have hmap : ((stridesRange (batch ++ [M, N]) (pack2 (ls.set (batch.length + 1) 0) (rs.set batch.length 0))).mapM
      fun v => dotLoop add mul l.bufWide r.bufWide (ls.getD (batch.length + 1) 0) (rs.getD batch.length 0) K
        (v.offs false) (v.offs true) zero) = some o := by
    rw [stridesRange_spec _ _ hpl, mapM_map, ← h1]
    congr 1
    funext idx
    simp only [Function.comp]
    rw [pack2_map_false (by simp [hll, hrl]), pack2_map_true (by simp [hll, hrl]), pos_map_nat, pos_map_nat]
  rw [show batch.length + (1 + 1) - 2 = batch.length by omega, hmap]
  have hM : (if l.shape.length = 1 then [] else [M]).prod = M := by
    rcases sl with ⟨hs, -, rfl⟩ | hs <;> simp [hs]
  have hN : (if r.shape.length = 1 then [] else [N]).prod = N := by
    rcases sr with ⟨hs, -, rfl⟩ | hs <;> simp [hs]
  refine ⟨_, rfl, ?_, rfl, ?_⟩
  · apply wf_fromWideNums
    rw [h2, length_allIndices, List.prod_append, List.prod_append, List.prod_append, hM, hN]
    simp only [List.prod_cons, List.prod_nil]
    ring
  · intro b m n hb hm hn
    obtain ⟨x, y, q1, q2⟩ := key b m n hb hm hn
    refine ⟨x, y, q1, ?_⟩
    rw [value_fromWideNums]
    have hin : InBounds (batch ++ [M, N]) (b ++ [m, n]) := inBounds_append' hb (by simp [hm, hn])
    have hpos : rowMajor (batch ++ (if l.shape.length = 1 then [] else [M]) ++
        (if r.shape.length = 1 then [] else [N])) (b ++ (if l.shape.length = 1 then [] else [m]) ++
          (if r.shape.length = 1 then [] else [n])) = rowMajor (batch ++ [M, N]) (b ++ [m, n]) := by
      rw [List.append_assoc, List.append_assoc, rowMajor_append' hb.length, rowMajor_append' hb.length]
      rcases sl with ⟨hs, -, rfl⟩ | hs <;> rcases sr with ⟨hs', -, rfl⟩ | hs' <;>
        simp [hs, hs', rowMajor] <;> omega
    rw [hpos]
    have hlt : rowMajor (batch ++ [M, N]) (b ++ [m, n]) < (allIndices (batch ++ [M, N])).length := by
      rw [length_allIndices]; exact rowMajor_lt hin
    obtain ⟨y', e1, e2⟩ := h3 _ (b ++ [m, n]) (by
      rw [List.getElem?_eq_getElem hlt, getElem_allIndices hlt, unrank_rowMajor hin])
    rw [e2, ← e1, q2]

/-! ## comparisons -/

theorem allOf_spec {α : Type} {p : α → Option Bool} {q : α → Bool} : ∀ (l : List α),
    (∀ a ∈ l, p a = some (q a)) → allOf p l = some (l.all q)
  | [], _ => rfl
  | a :: l, h => by
    rw [allOf, h a (by simp), List.all_cons]
    simp only [Option.bind_some]
    cases q a with
    | false => rfl
    | true => simpa using allOf_spec l (fun x hx => h x (by simp [hx]))

theorem equal_spec {l r : Elms W} (hl : WF l) (hr : WF r) {S : List Nat}
    (bl : BroadcastTo l.shape S) (br : BroadcastTo r.shape S) (same : W → W → Bool) :
    ∃ b, equal same l r S = some b ∧ (b = true ↔ ∀ idx, InBounds S idx →
      ∃ x y, value l (bIdx l.shape idx) = some x ∧ value r (bIdx r.shape idx) = some y ∧ same x y = true) := by
  have hx : ∀ idx, InBounds S idx → ∃ q : Bool, ∃ x y, value l (bIdx l.shape idx) = some x ∧
      value r (bIdx r.shape idx) = some y ∧ q = same x y := by
    intro idx hi
    obtain ⟨x, hx⟩ := hl.value_some (bl.inBounds hi)
    obtain ⟨y, hy⟩ := hr.value_some (br.inBounds hi)
    exact ⟨_, x, y, hx, hy, rfl⟩
  choose! q hq using hx
  have le : (expandStrides l.strides S.length).length = S.length :=
    expandStrides_length (by rw [hl.len]; exact bl.1)
  have re : (expandStrides r.strides S.length).length = S.length :=
    expandStrides_length (by rw [hr.len]; exact br.1)
  refine ⟨(allIndices S).all q, ?_, ?_⟩
  · unfold equal Elms.expanded
    simp only
    rw [stridesRange_spec _ _ (pack2_length le re),
      allOf_spec (q := fun v => q v.index)]
    · simp [List.all_map, Function.comp_def]
    · intro a ha
      obtain ⟨idx, hidx, rfl⟩ := List.mem_map.1 ha
      obtain ⟨x, y, h1, h2, h3⟩ := hq idx (mem_allIndices.1 hidx)
      simp only
      rw [pack2_map_false (by rw [le, re]), pack2_map_true (by rw [le, re]),
        expanded_read hl bl (mem_allIndices.1 hidx), expanded_read hr br (mem_allIndices.1 hidx), h1, h2, h3]
      rfl
  · rw [List.all_eq_true]
    constructor
    · intro h idx hi
      obtain ⟨x, y, h1, h2, h3⟩ := hq idx hi
      exact ⟨x, y, h1, h2, h3 ▸ h idx (mem_allIndices.2 hi)⟩
    · intro h idx hidx
      obtain ⟨x, y, h1, h2, h3⟩ := hq idx (mem_allIndices.1 hidx)
      obtain ⟨x', y', h1', h2', h3'⟩ := h idx (mem_allIndices.1 hidx)
      rw [h1] at h1'
      rw [h2] at h2'
      cases h1'; cases h2'
      rw [h3]; exact h3'

theorem allEqual_spec {e : Elms W} (h : WF e) (hne : 0 < e.shape.prod) (same : W → W → Bool) (n : W) :
    allEqual same e n = true ↔ ∀ idx, InBounds e.shape idx → ∃ v, value e idx = some v ∧ same n v = true := by
  unfold allEqual
  rw [List.all_eq_true]
  constructor
  · intro hall idx hi
    obtain ⟨v, hv⟩ := h.value_some hi
    refine ⟨v, hv, hall v ?_⟩
    rw [h.value_eq' hi] at hv
    exact List.mem_of_getElem? hv
  · intro hall v hv
    obtain ⟨k, hk⟩ := List.mem_iff_getElem?.1 hv
    have hlt : k < e.buf.length := by
      have := (List.getElem?_eq_some_iff.1 hk).1
      simpa [Elms.bufWide] using this
    obtain ⟨idx, hi, rfl⟩ := h.onto hne k hlt
    obtain ⟨v', h1, h2⟩ := hall idx hi
    rw [h.value_eq' hi, hk] at h1
    cases h1
    exact h2

/-! ## ranges and non-zero elements -/

theorem rangeLoop_get (add : W → W → W) (delta : W) : ∀ (n : Nat) (x : W) (i : Nat), i < n →
    (rangeLoop add delta n x)[i]? = some ((fun y => add y delta)^[i] x)
  | 0, _, _, h => by omega
  | n + 1, x, 0, _ => rfl
  | n + 1, x, i + 1, h => by
    rw [rangeLoop, List.getElem?_cons_succ, rangeLoop_get add delta n _ i (by omega)]
    rfl

theorem rangeLoop_length (add : W → W → W) (delta : W) : ∀ (n : Nat) (x : W),
    (rangeLoop add delta n x).length = n
  | 0, _ => rfl
  | n + 1, x => by simp [rangeLoop, rangeLoop_length]

theorem flatten_get {rank : Nat} : ∀ (l : List (List Nat)), (∀ x ∈ l, x.length = rank) → ∀ t a, a < rank →
    l.flatten[t * rank + a]? = (l[t]?).bind (·[a]?)
  | [], _, t, a, _ => by simp
  | x :: l, h, 0, a, ha => by
    have hx := h x (by simp)
    rw [List.flatten_cons, List.getElem?_append_left (by omega)]
    simp
  | x :: l, h, t + 1, a, ha => by
    have hx := h x (by simp)
    rw [List.flatten_cons, List.getElem?_append_right (by rw [hx]; nlinarith),
      show (t + 1) * rank + a - x.length = t * rank + a by rw [hx, Nat.succ_mul]; omega,
      flatten_get l (fun y hy => h y (by simp [hy])) t a ha]
    simp

theorem nonZeroIndices_spec (zero : W → Bool) {e : Elms W} (h : WF e) :
    nonZeroIndices zero e = some ((allIndices e.shape).filter fun j =>
      (value e j).any fun x => !zero x).flatten := by
  obtain ⟨l, hl, -, hv⟩ := h.wideNums_eq
  unfold nonZeroIndices
  rw [hl]
  simp only [Option.bind_some]
  rw [stridesRange_spec _ _ (by simp)]
  have hval : ∀ j, InBounds e.shape j → ∃ x, l[rowMajor e.shape j]? = some x ∧ value e j = some x := by
    intro j hj
    obtain ⟨v, -, h2⟩ := hv j hj
    exact ⟨_, h2, by unfold value; rw [hl]; exact h2⟩
  have : ∀ (L : List (List Nat)) (acc : List Nat), (∀ j ∈ L, InBounds e.shape j) →
      (L.map fun idx => (⟨rowMajor e.shape idx, idx, fun k => pos idx
          ((e.shape.map fun _ => (Empty.elim : Empty → Int)).map (· k))⟩ : IdxOffs Empty)).foldlM
        (fun acc v => (l[v.flat]?).map fun x => if zero x then acc else acc ++ v.index) acc =
      some (acc ++ (L.filter fun j => (value e j).any fun x => !zero x).flatten) := by
    intro L
    induction L with
    | nil => intro acc _; simp
    | cons j L ih =>
      intro acc hL
      obtain ⟨x, h1, h2⟩ := hval j (hL j (by simp))
      rw [List.map_cons, List.foldlM_cons]
      simp only [h1, Option.map_some, bind, Option.bind_some]
      rw [ih _ (fun i hi => hL i (by simp [hi]))]
      by_cases hz : zero x = true
      · rw [List.filter_cons]; simp [h2, hz]
      · rw [List.filter_cons]; simp [h2, hz]
  rw [this _ _ (fun j hj => mem_allIndices.1 hj)]
  simp

theorem nonZero_spec (zero : W → Bool) {e : Elms W} (h : WF e) (hr : e.shape.length ≠ 0) :
    ∃ r, nonZero zero e = some r ∧ WF r ∧
      r.shape = [e.shape.length, ((allIndices e.shape).filter fun j => (value e j).any fun x => !zero x).length] ∧
      ∀ a t, InBounds r.shape [a, t] →
        value r [a, t] = (((allIndices e.shape).filter fun j => (value e j).any fun x => !zero x)[t]?).bind (·[a]?) := by
  set L := (allIndices e.shape).filter fun j => (value e j).any fun x => !zero x with hL
  have hlen : ∀ x ∈ L, x.length = e.shape.length := fun x hx =>
    (mem_allIndices.1 (List.mem_filter.1 hx).1).length
  have hfl : L.flatten.length = L.length * e.shape.length := by
    rw [List.length_flatten]
    have : L.map List.length = List.replicate L.length e.shape.length := by
      rw [List.eq_replicate_iff]
      simp only [List.length_map, List.mem_map, forall_exists_index, and_imp, true_and]
      rintro _ x hx rfl
      exact hlen x hx
    rw [this]; simp
  unfold nonZero
  simp only
  rw [if_neg hr, nonZeroIndices_spec zero h]
  simp only [Option.bind_some]
  rw [← hL, hfl, Nat.mul_div_cancel _ (by omega)]
  obtain ⟨o, h1, h2, h3⟩ := mapM_total (l := List.range (e.shape.length * L.length))
    (f := fun p => L.flatten[p % L.length * e.shape.length + p / L.length]?) (by
      intro p hp
      have hp := List.mem_range.1 hp
      have hc : 0 < L.length := by
        rcases Nat.eq_zero_or_pos L.length with h0 | h0
        · rw [h0] at hp; omega
        · exact h0
      have ha : p / L.length < e.shape.length := Nat.div_lt_of_lt_mul (by rw [Nat.mul_comm]; exact hp)
      have ht := Nat.mod_lt p hc
      have : p % L.length * e.shape.length + p / L.length < L.flatten.length := by
        rw [hfl]; nlinarith
      exact ⟨_, List.getElem?_eq_getElem this⟩)
  rw [h1]
  refine ⟨_, rfl, wf_fromWideNums _ _ (by rw [h2]; simp), rfl, ?_⟩
  intro a t hin
  have hin' : a < e.shape.length ∧ t < L.length := by
    have : InBounds [e.shape.length, L.length] [a, t] := hin
    simpa using this
  rw [value_fromWideNums]
  have hrm : rowMajor [e.shape.length, L.length] [a, t] = a * L.length + t := by simp [rowMajor]
  rw [hrm]
  have hlt : a * L.length + t < e.shape.length * L.length := by nlinarith
  obtain ⟨y, e1, e2⟩ := h3 (a * L.length + t) (a * L.length + t) (by
    rw [List.getElem?_range hlt])
  rw [e2, ← e1]
  have m1 : (a * L.length + t) % L.length = t := by
    rw [Nat.add_comm, Nat.add_mul_mod_self_right, Nat.mod_eq_of_lt hin'.2]
  have m2 : (a * L.length + t) / L.length = a := by
    rw [Nat.add_comm, Nat.add_mul_div_right _ _ (by omega), Nat.div_eq_of_lt hin'.2, Nat.zero_add]
  rw [m1, m2, flatten_get L hlen t a hin'.1]

end Verif.Elems
