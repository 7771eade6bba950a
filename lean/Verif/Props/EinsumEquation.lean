import Verif.Einsum.Types
import Verif.Props.Einsum

/-!
# C95: the equations of Einsum

Specification: the first part of `Verif/Einsum/Equation.lean`, and `einsum` and `Fits` (`Verif/Einsum/Spec.lean`).
-/

namespace Verif.Props

open Verif.Rewrite Verif.Einsum Verif.Einsum.Sig

variable {V : Type} [Inhabited V] {A : Alg V}

/-- A text is accepted if and only if it is written like an equation, apart from spaces, with the right number of operands, and
the letters of the result occur once in it and in some operand. -/
theorem C95_syntax {s : List Char} {n : ℕ} : verifyEquation s n = true ↔
    ∃ e : Eqn, e.Reads s ∧ e.ins.length = n ∧ e.OutOk := verifyEquation_iff

/-- "ij...,jk...->ik..." with spaces. -/
def exText : List Char := " i j.. . , jk...- >ik ...".toList

/-- The equation. -/
def exEqn : Eqn := ⟨[⟨['i', 'j'], some []⟩, ⟨['j', 'k'], some []⟩], some ⟨['i', 'k'], some []⟩⟩

/-- It is written like this. -/
theorem exReads : exEqn.Reads exText := ⟨⟨by decide, by decide, by decide⟩, by decide⟩

example : verifyEquation exText 2 = true ∧ exEqn.OutOk ∧ exEqn.ins.length = 2 := by
  refine ⟨by decide +kernel, ?_, rfl⟩
  intro o ho
  rw [← Option.some.inj ho]
  exact ⟨by decide, by decide⟩

/-- Two arrows, four dots, repeated letters of the result, a letter that occurs in no operand, and a missing operand. -/
example : verifyEquation "i->i->i".toList 1 = false ∧ verifyEquation "i....".toList 1 = false ∧
    verifyEquation "ij->ii".toList 1 = false ∧ verifyEquation "ij->k".toList 1 = false ∧
    verifyEquation "ij->i".toList 2 = false := by decide +kernel

/-- Types of operands are accepted if and only if an ellipsis can stand for the same number of axes, at most ten, in all of them, and known
extents agree; the signature lists the subscripts of all axes, in which the axes of the ellipsis have subscripts of their
own, and what is known of the extents of the result. -/
theorem C95_signature {e : Eqn} {s : List Char} {types : List (List (Option ℕ))} (h : e.Reads s)
    (hl : types.length = e.ins.length) {r : List (List Char) × List Char × List (Option ℕ)} :
    inferSignature s types = some r ↔ ∃ k o, e.Ellipsis (types.map List.length) k ∧ k ≤ 10 ∧ e.result o ∧
      (k ≠ 0 → o.post ≠ none) ∧ Agree ((e.ins.map (·.subs k)).zip types) ∧
      r = (e.ins.map (·.subs k), o.subs k, (o.subs k).map (typeOf ((e.ins.map (·.subs k)).zip types))) :=
  inferSignature_iff h hl

example : inferSignature exText [[some 2, none, some 1, some 4], [some 3, none, none, some 1]] =
    some (["ij01".toList, "jk01".toList], "ik01".toList, [some 2, none, none, some 4]) := by decide +kernel

/-- The result is left out. -/
example : inferSignature "zb,bA".toList [[some 2, some 3], [some 3, some 1]] =
    some (["zb".toList, "bA".toList], "Az".toList, [some 1, some 2]) := by decide +kernel

/-- Extents that differ, in one operand and in two, different ellipses, and a result without the ellipsis. -/
example : inferSignature "ii->i".toList [[some 2, some 1]] = none ∧
    inferSignature "i,i->i".toList [[some 2], [some 3]] = none ∧
    inferSignature "...,...".toList [[some 2], [some 2, some 2]] = none ∧
    inferSignature "i...->i".toList [[some 2, some 2]] = none := by decide +kernel

/-- Whenever operands fit the subscripts, whatever is known of their shapes is accepted, and what is inferred of the shape of
the result is true. -/
theorem C95_types {e : Eqn} {s : List Char} {ts : List (Tensor V)} {types : List (List (Option ℕ))} (h : e.Reads s)
    (ht : List.Forall₂ (fun (t : Tensor V) ty => FitsDims ty t.shape) ts types) {k : ℕ} {o : Param}
    (hk : e.Ellipsis (ts.map fun t => t.shape.length) k) (h10 : k ≤ 10) (hr : e.result o)
    (ho : k ≠ 0 → o.post ≠ none) (hf : Fits ((e.ins.map (·.subs k)).zip ts) (o.subs k)) :
    ∃ shape, inferSignature s types = some (e.ins.map (·.subs k), o.subs k, shape) ∧
      FitsDims shape ((o.subs k).map (extent ((e.ins.map (·.subs k)).zip ts))) := by
  have hlen : types.map List.length = ts.map fun t => t.shape.length := by
    clear hk hf
    induction ht with
    | nil => rfl
    | cons h _ ih => rw [List.map_cons, List.map_cons, ih, h.length_eq]
  have hl : types.length = e.ins.length := by
    have := hk.1.length_eq
    rw [← ht.length_eq, this, List.length_map]
  refine ⟨_, (inferSignature_iff h hl).2 ⟨k, o, hlen ▸ hk, h10, hr, ho, agree_of_fits ht hf, rfl⟩, ?_⟩
  unfold FitsDims
  rw [List.forall₂_map_left_iff, List.forall₂_map_right_iff, List.forall₂_same]
  exact fun x _ => typeOf_fits ht hf x

example : exEqn.Ellipsis ([qiota [2, 3, 1], qiota [3, 2, 2]].map fun t => t.shape.length) 1 ∧
    exEqn.result ⟨['i', 'k'], some []⟩ ∧
    Fits ((exEqn.ins.map (·.subs 1)).zip [qiota [2, 3, 1], qiota [3, 2, 2]]) ("ik0".toList) :=
  ⟨⟨.cons rfl (.cons rfl .nil), fun h => by cases h _ List.mem_cons_self⟩, rfl,
    by decide +kernel, by decide +kernel, by decide +kernel, by decide +kernel, by decide +kernel⟩

/-- An Einsum that is accepted on operands of static shapes has the inferred shape, and what it is decomposed into computes the
sum of products that the text describes. -/
theorem C95_einsum [CommRing V] (hA : RingAlg A) (hone : A.truth (A.ofInt 1) = true)
    (hzero : A.truth (A.ofInt 0) = false) {order : List Char → List Char} (horder : ∀ l, (order l).Perm l)
    {s : List Char} {ts : List (Tensor V)} (hv : verifyEquation s ts.length = true)
    {r : List (List Char) × List Char × List (Option ℕ)}
    (hs : inferSignature s (ts.map fun t => t.shape.map some) = some r) :
    ∃ (e : Eqn) (k : ℕ) (o : Param), e.Reads s ∧ e.Ellipsis (ts.map fun t => t.shape.length) k ∧ e.result o ∧
      r.2.2 = (einsum ((e.ins.map (·.subs k)).zip ts) (o.subs k)).shape.map some ∧
      decompose A order (r.1.zip ts) r.2.1 (r.2.2.map fun d => d.getD 0) =
        some (einsum ((e.ins.map (·.subs k)).zip ts) (o.subs k)) := by
  obtain ⟨e, he, hn, hok⟩ := verifyEquation_iff.1 hv
  obtain ⟨k, o, h1, h2, h3, h4, h5, rfl⟩ := (inferSignature_iff he (by simp [hn])).1 hs
  rw [List.map_map] at h1
  have h1' : e.Ellipsis (ts.map fun t => t.shape.length) k := by
    have : (ts.map (List.length ∘ fun t => t.shape.map some)) = ts.map fun t => t.shape.length :=
      List.map_congr_left fun t _ => by simp
    rw [← this]
    exact h1
  obtain ⟨hf, hsh⟩ := static_fits he.1 hok h1' h2 h3 h5
  have hne : (e.ins.map (·.subs k)).zip ts ≠ [] := by
    have hpos := List.length_pos_iff.2 he.1.1
    intro h
    have := congrArg List.length h
    rw [List.length_zip, List.length_map, hn, min_self, List.length_nil] at this
    omega
  refine ⟨e, k, o, he, h1', h3, ?_, ?_⟩
  · simp only
    rw [hsh]
    simp [einsum, build]
  · simp only
    rw [hsh, List.map_map]
    exact C94_einsum hA hone hzero horder hf hne

/-- From the text to the value. -/
example : (inferSignature "...ij,jk".toList [[some 2, some 1, some 2], [some 2, some 2]]).map (fun r =>
    (decompose qAlg id (r.1.zip [qiota [2, 1, 2], qiota [2, 2]]) r.2.1 (r.2.2.map fun d => d.getD 0)).map
      fun t => (t.shape, t.data)) = some (some ([2, 1, 2], [7, 10, 15, 22])) := by decide +kernel

end Verif.Props
