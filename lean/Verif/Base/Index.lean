import Mathlib.Data.List.Forall2
import Mathlib.Data.List.Range
import Mathlib.Data.List.Nodup
import Mathlib.Algebra.BigOperators.Group.List.Basic
import Mathlib.Tactic.Ring
import Mathlib.Tactic.Linarith

/-!
# Shapes, indices and row-major order

Shared specification vocabulary. Nothing here models code: these are the textbook
notions (in-bounds index, row-major position, enumeration of indices) that the
property statements use.
-/

namespace Verif

/-- An index is in bounds for a shape: same rank, and each coordinate is below the extent. -/
def InBounds (shape idx : List Nat) : Prop := List.Forall₂ (· < ·) idx shape

instance (shape idx : List Nat) : Decidable (InBounds shape idx) := by
  unfold InBounds; infer_instance

/-- Row-major position of an index: coordinate `i` of an axis advances by the number of
elements below that axis. -/
def rowMajor : List Nat → List Nat → Nat
  | _ :: ds, i :: is => i * ds.prod + rowMajor ds is
  | _, _ => 0

/-- Inverse of `rowMajor`: the index found at a row-major position. -/
def unrank : List Nat → Nat → List Nat
  | [], _ => []
  | _ :: ds, n => n / ds.prod :: unrank ds (n % ds.prod)

/-- All in-bounds indices in row-major (lexicographic) order. -/
def allIndices : List Nat → List (List Nat)
  | [] => [[]]
  | d :: ds => (List.range d).flatMap fun i => (allIndices ds).map (i :: ·)

@[simp] theorem inBounds_nil : InBounds [] [] := List.Forall₂.nil

@[simp] theorem inBounds_cons {d i : Nat} {ds is : List Nat} :
    InBounds (d :: ds) (i :: is) ↔ i < d ∧ InBounds ds is := by
  simp [InBounds]

@[simp] theorem inBounds_nil_left {is : List Nat} : InBounds [] is ↔ is = [] := by
  simp [InBounds]

@[simp] theorem inBounds_cons_nil {d : Nat} {ds : List Nat} : ¬ InBounds (d :: ds) [] := by
  simp [InBounds]

theorem InBounds.length {shape idx : List Nat} (h : InBounds shape idx) :
    idx.length = shape.length := List.Forall₂.length_eq h

theorem InBounds.get_lt {shape idx : List Nat} (h : InBounds shape idx) (k : Nat)
    (hk : k < shape.length) : idx[k]'(h.length ▸ hk) < shape[k] :=
  List.Forall₂.get h (h.length ▸ hk) hk

theorem inBounds_iff_get {shape idx : List Nat} :
    InBounds shape idx ↔ ∃ h : idx.length = shape.length,
      ∀ k (hk : k < shape.length), idx[k]'(h ▸ hk) < shape[k] := by
  constructor
  · intro h; exact ⟨h.length, h.get_lt⟩
  · rintro ⟨h, h'⟩
    exact List.forall₂_iff_get.2 ⟨h, fun i h₁ h₂ => h' i h₂⟩

theorem InBounds.prod_pos {shape idx : List Nat} (h : InBounds shape idx) : 0 < shape.prod := by
  induction shape generalizing idx with
  | nil => simp
  | cons d ds ih =>
    cases idx with
    | nil => simp at h
    | cons i is =>
      simp only [inBounds_cons] at h
      have := ih h.2
      rw [List.prod_cons]
      exact Nat.mul_pos (by omega) this

theorem rowMajor_lt {shape idx : List Nat} (h : InBounds shape idx) :
    rowMajor shape idx < shape.prod := by
  induction shape generalizing idx with
  | nil => simp at h; subst h; simp [rowMajor]
  | cons d ds ih =>
    cases idx with
    | nil => simp at h
    | cons i is =>
      simp only [inBounds_cons] at h
      have h2 := ih h.2
      simp only [rowMajor, List.prod_cons]
      calc i * ds.prod + rowMajor ds is < i * ds.prod + ds.prod := by omega
        _ = (i + 1) * ds.prod := by ring
        _ ≤ d * ds.prod := Nat.mul_le_mul_right _ h.1

theorem unrank_rowMajor {shape idx : List Nat} (h : InBounds shape idx) :
    unrank shape (rowMajor shape idx) = idx := by
  induction shape generalizing idx with
  | nil => simp at h; subst h; rfl
  | cons d ds ih =>
    cases idx with
    | nil => simp at h
    | cons i is =>
      simp only [inBounds_cons] at h
      have hlt := rowMajor_lt h.2
      have hp := h.2.prod_pos
      simp only [rowMajor, unrank]
      rw [Nat.mul_comm i, Nat.mul_add_div hp, Nat.mul_add_mod, Nat.div_eq_of_lt hlt,
        Nat.mod_eq_of_lt hlt, ih h.2, Nat.add_zero]

theorem unrank_inBounds {shape : List Nat} {n : Nat} (h : n < shape.prod) :
    InBounds shape (unrank shape n) := by
  induction shape generalizing n with
  | nil => simp [unrank]
  | cons d ds ih =>
    rw [List.prod_cons] at h
    have hp : 0 < ds.prod := by
      rcases Nat.eq_zero_or_pos ds.prod with h0 | h0
      · simp [h0] at h
      · exact h0
    simp only [unrank, inBounds_cons]
    exact ⟨(Nat.div_lt_iff_lt_mul hp).2 h, ih (Nat.mod_lt _ hp)⟩

theorem rowMajor_unrank {shape : List Nat} {n : Nat} (h : n < shape.prod) :
    rowMajor shape (unrank shape n) = n := by
  induction shape generalizing n with
  | nil => simp at h; subst h; rfl
  | cons d ds ih =>
    rw [List.prod_cons] at h
    have hp : 0 < ds.prod := by
      rcases Nat.eq_zero_or_pos ds.prod with h0 | h0
      · simp [h0] at h
      · exact h0
    simp only [unrank, rowMajor]
    rw [ih (Nat.mod_lt _ hp)]
    exact Nat.div_add_mod' n ds.prod

theorem rowMajor_inj {shape i j : List Nat} (hi : InBounds shape i) (hj : InBounds shape j)
    (h : rowMajor shape i = rowMajor shape j) : i = j := by
  rw [← unrank_rowMajor hi, ← unrank_rowMajor hj, h]

@[simp] theorem length_unrank (shape : List Nat) (n : Nat) :
    (unrank shape n).length = shape.length := by
  induction shape generalizing n with
  | nil => rfl
  | cons d ds ih => simp [unrank, ih]

theorem mem_allIndices {shape idx : List Nat} :
    idx ∈ allIndices shape ↔ InBounds shape idx := by
  induction shape generalizing idx with
  | nil => simp [allIndices]
  | cons d ds ih =>
    simp only [allIndices, List.mem_flatMap, List.mem_range, List.mem_map]
    constructor
    · rintro ⟨i, hi, is, his, rfl⟩
      exact inBounds_cons.2 ⟨hi, ih.1 his⟩
    · intro h
      cases idx with
      | nil => simp at h
      | cons i is =>
        simp only [inBounds_cons] at h
        exact ⟨i, h.1, is, ih.2 h.2, rfl⟩

theorem range_mul_flatMap (d p : Nat) :
    (List.range d).flatMap (fun i => (List.range p).map (fun j => i * p + j)) =
      List.range (d * p) := by
  induction d with
  | zero => simp
  | succ d ih =>
    rw [List.range_succ, List.flatMap_append, ih, Nat.succ_mul, List.range_add]
    simp [Nat.add_comm, Nat.mul_comm]

/-- The enumeration visits positions `0, 1, ..., n-1` in this order. -/
theorem map_rowMajor_allIndices (shape : List Nat) :
    (allIndices shape).map (rowMajor shape) = List.range shape.prod := by
  induction shape with
  | nil => simp [allIndices, rowMajor]
  | cons d ds ih =>
    simp only [allIndices, List.map_flatMap, List.map_map, List.prod_cons]
    rw [← range_mul_flatMap]
    apply List.flatMap_congr
    intro i _
    rw [← ih, List.map_map]
    rfl

theorem length_allIndices (shape : List Nat) : (allIndices shape).length = shape.prod := by
  have := congrArg List.length (map_rowMajor_allIndices shape)
  simpa using this

theorem nodup_allIndices (shape : List Nat) : (allIndices shape).Nodup := by
  have h : ((allIndices shape).map (rowMajor shape)).Nodup := by
    rw [map_rowMajor_allIndices]; exact List.nodup_range
  exact List.Nodup.of_map _ h

theorem getElem_allIndices {shape : List Nat} {n : Nat} (h : n < (allIndices shape).length) :
    (allIndices shape)[n] = unrank shape n := by
  have h1 : rowMajor shape ((allIndices shape)[n]) = n := by
    have := congrArg (fun l => l[n]?) (map_rowMajor_allIndices shape)
    have hn : n < shape.prod := by rwa [length_allIndices] at h
    simp only [List.getElem?_map, List.getElem?_eq_getElem h, Option.map_some,
      List.getElem?_range hn] at this
    exact Option.some.inj this
  have h2 : InBounds shape ((allIndices shape)[n]) := mem_allIndices.1 (List.getElem_mem h)
  rw [← unrank_rowMajor h2, h1]

theorem allIndices_eq_map_unrank (shape : List Nat) :
    allIndices shape = (List.range shape.prod).map (unrank shape) := by
  apply List.ext_getElem
  · simp [length_allIndices]
  · intro n h1 h2
    rw [getElem_allIndices]
    simp

end Verif
