import Verif.Runtime.TensorModel

namespace Verif.Runtime
open Verif

theorem mul64_eq {a b : Nat} (h : a * b < i64Bound) : mul64 a b = some (a * b) := by
  simp [mul64, h]

theorem add64_eq {a b : Nat} (h : a + b < i64Bound) : add64 a b = some (a + b) := by
  simp [add64, h]

theorem prod_pos_of_pos {l : List Nat} (h : ∀ d ∈ l, 0 < d) : 0 < l.prod := by
  induction l with
  | nil => simp
  | cons d ds ih =>
    rw [List.prod_cons]
    exact Nat.mul_pos (h d (by simp)) (ih fun x hx => h x (by simp [hx]))

theorem foldlM_mul64 {l : List Nat} (h : ∀ d ∈ l, 0 < d) (a : Nat)
    (hfit : a * l.prod < i64Bound) : l.foldlM mul64 a = some (a * l.prod) := by
  induction l generalizing a with
  | nil => simp
  | cons d ds ih =>
    have hds : ∀ x ∈ ds, 0 < x := fun x hx => h x (by simp [hx])
    have hp := prod_pos_of_pos hds
    rw [List.prod_cons, ← Nat.mul_assoc] at hfit ⊢
    have : a * d < i64Bound := lt_of_le_of_lt (Nat.le_mul_of_pos_right _ hp) hfit
    simp only [List.foldlM_cons, mul64_eq this]
    exact ih hds _ hfit

theorem getNumElems_eq {l : List Nat} (h : ∀ d ∈ l, 0 < d) (hfit : l.prod < i64Bound) :
    getNumElems l = some l.prod := by
  unfold getNumElems
  rw [foldlM_mul64 h 1 (by simpa using hfit), Nat.one_mul]

/-- The strides a dense row-major tensor should have. -/
def denseStrides : List Nat → List Nat
  | [] => []
  | _ :: ds => ds.prod :: denseStrides ds

theorem length_denseStrides (l : List Nat) : (denseStrides l).length = l.length := by
  induction l with
  | nil => rfl
  | cons d ds ih => simp [denseStrides, ih]

theorem createStrides_eq {l : List Nat} (h : ∀ d ∈ l, 0 < d) (hfit : l.prod < i64Bound) :
    createStrides l = some (denseStrides l) := by
  induction l with
  | nil => rfl
  | cons d ds ih =>
    cases ds with
    | nil => simp [createStrides, denseStrides]
    | cons e es =>
      have hds : ∀ x ∈ e :: es, 0 < x := fun x hx => h x (by simp at hx ⊢; tauto)
      have hd : 0 < d := h d (by simp)
      have hp : (e :: es).prod < i64Bound := by
        rw [List.prod_cons] at hfit
        exact lt_of_le_of_lt (Nat.le_mul_of_pos_left _ hd) hfit
      rw [createStrides, ih hds hp]
      simp only [denseStrides]
      rw [mul64_eq (by rw [Nat.mul_comm]; rwa [List.prod_cons] at hp)]
      simp [Nat.mul_comm]

theorem innerProduct_dense {shape idx : List Nat} (h : InBounds shape idx) (r : Nat)
    (hfit : r + rowMajor shape idx < i64Bound) :
    innerProduct (denseStrides shape) idx r = some (r + rowMajor shape idx) := by
  induction shape generalizing idx r with
  | nil => simp at h; subst h; simp [denseStrides, innerProduct, rowMajor]
  | cons d ds ih =>
    cases idx with
    | nil => simp at h
    | cons i is =>
      simp only [inBounds_cons] at h
      simp only [rowMajor] at hfit ⊢
      have e1 : ds.prod * i < i64Bound := by rw [Nat.mul_comm]; omega
      have e2 : r + ds.prod * i < i64Bound := by rw [Nat.mul_comm]; omega
      simp only [denseStrides, innerProduct, mul64_eq e1, add64_eq e2]
      rw [ih h.2 _ (by rw [Nat.mul_comm ds.prod]; omega)]
      congr 1
      rw [Nat.mul_comm ds.prod]; omega

theorem denseStrides_getElem? (l : List Nat) (i : Nat) (hi : i < l.length) :
    (denseStrides l)[i]? = some (l.drop (i + 1)).prod := by
  induction l generalizing i with
  | nil => simp at hi
  | cons d ds ih =>
    cases i with
    | zero => simp [denseStrides]
    | succ i => simp only [denseStrides, List.getElem?_cons_succ, List.drop_succ_cons]
                exact ih i (by simpa using hi)

theorem drop_prod_le {l : List Nat} (h : ∀ d ∈ l, 0 < d) (i : Nat) :
    (l.drop i).prod ≤ l.prod := by
  conv_rhs => rw [← List.take_append_drop i l, List.prod_append]
  exact Nat.le_mul_of_pos_left _ (prod_pos_of_pos fun d hd => h d (List.mem_of_mem_take hd))

theorem omTensorGetNumElems_dense {l : List Nat} (h : ∀ d ∈ l, 0 < d)
    (hfit : l.prod < i64Bound) : omTensorGetNumElems l (denseStrides l) = some l.prod := by
  unfold omTensorGetNumElems
  rw [if_pos, getNumElems_eq h hfit]
  rw [List.all_eq_true]
  intro i hi
  rw [List.mem_range] at hi
  rw [denseStrides_getElem? l i hi,
    getNumElems_eq (fun d hd => h d (List.mem_of_mem_drop hd))
      (lt_of_le_of_lt (drop_prod_le h _) hfit)]
  simp

theorem partialProd_append (a : Nat) (xs ys : List Nat) :
    partialProd a (xs ++ ys) =
      (partialProd a xs).bind fun r =>
        (partialProd (r.getLast?.getD a) ys).map fun q => r ++ q := by
  induction xs generalizing a with
  | nil => cases h : partialProd a ys <;> simp [partialProd, h]
  | cons x xs ih =>
    simp only [List.cons_append, partialProd]
    cases hm : mul64 a x with
    | none => simp
    | some p =>
      simp only [ih]
      cases hr : partialProd p xs with
      | none => simp
      | some r =>
        simp only [Option.bind_some, Option.map_some]
        have : ((p :: r).getLast?.getD a) = r.getLast?.getD p := by
          simp [List.getLast?_cons]
        rw [this]
        cases partialProd (r.getLast?.getD p) ys <;> simp

theorem partialProd_reverse {d : Nat} {tail : List Nat} (h : ∀ x ∈ tail, 0 < x)
    (hfit : tail.prod < i64Bound) :
    partialProd 1 (tail ++ [1]).reverse = some (denseStrides (d :: tail)).reverse := by
  induction tail generalizing d with
  | nil => simp [partialProd, denseStrides, mul64, i64Bound]
  | cons e es ih =>
    have hes : ∀ x ∈ es, 0 < x := fun x hx => h x (by simp [hx])
    have he : 0 < e := h e (by simp)
    have hp : es.prod < i64Bound := by
      rw [List.prod_cons] at hfit
      exact lt_of_le_of_lt (Nat.le_mul_of_pos_left _ he) hfit
    rw [List.cons_append, List.reverse_cons, partialProd_append, ih (d := e) hes hp]
    simp only [Option.bind_some, denseStrides, List.reverse_cons, List.getLast?_append,
      List.getLast?_singleton, Option.some_or, Option.getD_some, partialProd]
    rw [mul64_eq (by rw [Nat.mul_comm]; rwa [List.prod_cons] at hfit)]
    simp [Nat.mul_comm]

theorem computeStridesFromShape_eq {l : List Nat} (hne : l ≠ []) (h : ∀ d ∈ l, 0 < d)
    (hfit : l.prod < i64Bound) : computeStridesFromShape l = some (denseStrides l) := by
  cases l with
  | nil => exact absurd rfl hne
  | cons d tail =>
    have ht : ∀ x ∈ tail, 0 < x := fun x hx => h x (by simp [hx])
    have hd : 0 < d := h d (by simp)
    have hp : tail.prod < i64Bound := by
      rw [List.prod_cons] at hfit
      exact lt_of_le_of_lt (Nat.le_mul_of_pos_left _ hd) hfit
    change (partialProd 1 (tail ++ [1]).reverse).map List.reverse = _
    rw [partialProd_reverse (d := d) ht hp]
    simp

theorem toInt32_of_range {x : Int} (h0 : -2 ^ 31 ≤ x) (h1 : x < 2 ^ 31) : toInt32 x = x := by
  unfold toInt32; omega

theorem foldl_int32_dense {shape idx : List Nat} (h : InBounds shape idx) (r : Nat)
    (hfit : r + rowMajor shape idx < 2 ^ 31) :
    (List.zip idx (denseStrides shape)).foldl
      (fun (acc : Int) p => toInt32 (acc + (p.1 : Int) * p.2)) r = r + rowMajor shape idx := by
  induction shape generalizing idx r with
  | nil => simp at h; subst h; simp [denseStrides, rowMajor]
  | cons d ds ih =>
    cases idx with
    | nil => simp at h
    | cons i is =>
      simp only [inBounds_cons] at h
      simp only [rowMajor] at hfit
      simp only [denseStrides, List.zip_cons_cons, List.foldl_cons, rowMajor]
      have e : toInt32 ((r : Int) + (i : Int) * (ds.prod : Nat)) = ((r + i * ds.prod : Nat) : Int) := by
        rw [toInt32_of_range]
        · push_cast; ring
        · have : (0:Int) ≤ (r : Int) + (i : Int) * (ds.prod : Nat) := by positivity
          omega
        · have : ((r + i * ds.prod : Nat) : Int) < 2 ^ 31 := by
            have : r + i * ds.prod < 2 ^ 31 := by omega
            exact_mod_cast this
          push_cast at this ⊢; exact this
      rw [e, ih h.2 _ (by omega)]
      push_cast; ring

theorem cartProduct_go (v : List (List Nat)) (s : List (List Nat)) :
    v.foldl (fun s u => s.flatMap fun x => u.map fun y => x ++ [y]) s =
      s.flatMap fun x => (cartProduct v).map (x ++ ·) := by
  induction v using List.reverseRecOn generalizing s with
  | nil => simp [cartProduct]
  | append_singleton v u ih =>
    simp only [cartProduct, List.foldl_append, List.foldl_cons, List.foldl_nil]
    rw [ih, ih [[]]]
    simp only [List.flatMap_assoc, List.map_flatMap, List.flatMap_map, List.map_map]
    apply List.flatMap_congr
    intro x _
    simp [Function.comp_def, List.append_assoc]

theorem cartProduct_cons (u : List Nat) (v : List (List Nat)) :
    cartProduct (u :: v) = u.flatMap fun y => (cartProduct v).map (y :: ·) := by
  conv_lhs => rw [cartProduct]
  rw [List.foldl_cons, cartProduct_go]
  simp [List.flatMap_map]

theorem indexSet_eq (shape : List Nat) : omTensorComputeIndexSet shape = allIndices shape := by
  unfold omTensorComputeIndexSet
  induction shape with
  | nil => rfl
  | cons d ds ih => rw [List.map_cons, cartProduct_cons, ih]; rfl

end Verif.Runtime
