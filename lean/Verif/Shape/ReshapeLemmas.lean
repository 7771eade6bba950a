import Verif.Shape.ReshapeSpec
import Verif.Shape.ReshapeModel
import Verif.IndexExpr.Computes
import Mathlib.Algebra.BigOperators.Intervals
import Mathlib.Algebra.BigOperators.Ring.Finset
import Mathlib.Algebra.Order.BigOperators.Ring.Finset
import Mathlib.Tactic.Linarith
import Mathlib.Tactic.Ring
import Mathlib.Tactic.FieldSimp

namespace Verif.Shape
open Verif.IndexExpr Finset

variable {ρ : Nat → Int}

theorem bijection_spec : ∀ (l : List (Option Nat)) (i : Nat) (acc : List (Nat × Nat)),
    (acc.map Prod.snd).Nodup → (acc.map Prod.fst).Nodup → (∀ p ∈ acc, p.1 < i) →
    ((bijection l i acc).map Prod.snd).Nodup ∧ ((bijection l i acc).map Prod.fst).Nodup ∧
      ∀ p ∈ bijection l i acc, p ∈ acc ∨ (i ≤ p.1 ∧ l[p.1 - i]? = some (some p.2))
  | [], i, acc, h1, h2, _ => ⟨h1, h2, fun p hp => .inl hp⟩
  | none :: l, i, acc, h1, h2, h3 => by
    rw [bijection]
    obtain ⟨q1, q2, q3⟩ := bijection_spec l (i + 1) acc h1 h2 (fun p hp => by have := h3 p hp; omega)
    refine ⟨q1, q2, fun p hp => ?_⟩
    rcases q3 p hp with h | ⟨h, h'⟩
    · exact .inl h
    · right
      refine ⟨by omega, ?_⟩
      rw [show p.1 - i = (p.1 - (i + 1)) + 1 by omega]
      simpa using h'
  | some k :: l, i, acc, h1, h2, h3 => by
    rw [bijection]
    split
    · simp
    · rename_i hk
      obtain ⟨q1, q2, q3⟩ := bijection_spec l (i + 1) (acc ++ [(i, k)])
        (by
          rw [List.map_append, List.nodup_append]
          refine ⟨h1, by simp, ?_⟩
          intro a ha b hb
          simp at hb
          subst hb
          rintro rfl
          exact hk ha)
        (by
          rw [List.map_append, List.nodup_append]
          refine ⟨h2, by simp, ?_⟩
          intro a ha b hb
          simp at hb
          subst hb
          obtain ⟨p, hp, rfl⟩ := List.mem_map.1 ha
          have := h3 p hp
          omega)
        (by
          intro p hp
          rcases List.mem_append.1 hp with hp | hp
          · have := h3 p hp; omega
          · simp at hp; subst hp; simp)
      refine ⟨q1, q2, fun p hp => ?_⟩
      rcases q3 p hp with h | ⟨h, h'⟩
      · rcases List.mem_append.1 h with h | h
        · exact .inl h
        · simp at h
          subst h
          right
          simp
      · right
        refine ⟨by omega, ?_⟩
        rw [show p.1 - i = (p.1 - (i + 1)) + 1 by omega]
        simpa using h'

theorem filter_range_succ (p : Nat → Prop) [DecidablePred p] (f : Nat → Int) (n : Nat) :
    ∏ k ∈ (range (n + 1)).filter p, f k = (∏ k ∈ (range n).filter p, f k) * if p n then f n else 1 := by
  rw [range_add_one, filter_insert]
  split
  · rw [prod_insert (by simp), mul_comm]
  · simp

theorem numElems_eval (ign : List Nat) (n : Nat) : (numElems ign n).Ok ρ ∧
    (numElems ign n).eval ρ = some (∏ k ∈ (range n).filter (· ∉ ign), ρ (dataQ k)) := by
  induction n with
  | zero => simp [numElems, Expr.Ok, Expr.eval]
  | succ n ih =>
    rw [numElems, filter_range_succ]
    split
    · rename_i h
      simpa [h] using ih
    · rename_i h
      refine ⟨⟨ih.1, trivial⟩, ?_⟩
      simp [Expr.eval, ih.2, lift2, h]

/-- The extent asked for, except for -1. -/
theorem reshapeDim_eval {dataRank i : Nat} {n m : Nat} {out : Nat → Int}
    (h : ReshapeTo n m (fun k => ρ (dataQ k)) (fun i => ρ (shapeQ i)) out) (hn : n = dataRank) (hi : i < m) :
    (reshapeDim dataRank i).Ok ρ ∧
    (reshapeDim dataRank i).eval ρ = some (if ρ (shapeQ i) = -1 then -1 else out i) := by
  subst hn
  have h1 := h.valid i hi
  unfold reshapeDim
  split
  · refine ⟨⟨⟨trivial, trivial⟩, trivial, trivial⟩, ?_⟩
    simp only [Expr.eval, PExpr.eval, Option.bind_some, Option.map_some, Cmp.holds, decide_eq_true_eq]
    split
    · rename_i h0
      rw [h0]
      have := (h.copy i hi h0).2
      simp [this]
    · rename_i h0
      split
      · rename_i h3; rw [h3]
      · have := h.keep i hi (by omega)
        rw [this]
  · rename_i hlt
    refine ⟨trivial, ?_⟩
    simp only [Expr.eval]
    split
    · rename_i h3; rw [h3]
    · by_cases h0 : ρ (shapeQ i) = 0
      · exact absurd (h.copy i hi h0).1 hlt
      · have := h.keep i hi (by omega)
        rw [this]

theorem numFromShape_eval {dataRank : Nat} (ign : List Nat) {n m : Nat} {out : Nat → Int}
    (h : ReshapeTo n m (fun k => ρ (dataQ k)) (fun i => ρ (shapeQ i)) out) (hn : n = dataRank)
    (hpos : ∀ k < n, 0 ≤ ρ (dataQ k)) :
    ∀ i ≤ m, (numFromShape dataRank ign i).Ok ρ ∧ (numFromShape dataRank ign i).eval ρ =
      some (∏ j ∈ (range i).filter (· ∉ ign), if ρ (shapeQ j) = -1 then 1 else out j) := by
  intro i
  induction i with
  | zero => intro _; simp [numFromShape, Expr.Ok, Expr.eval]
  | succ i ih =>
    intro hi
    have ih := ih (by omega)
    rw [numFromShape, filter_range_succ]
    split
    · rename_i h1
      simpa [h1] using ih
    · rename_i h1
      obtain ⟨ho, he⟩ := reshapeDim_eval h hn (by omega : i < m)
      refine ⟨⟨ih.1, ⟨⟨ho, trivial⟩, trivial, ho⟩⟩, ?_⟩
      have hout : ρ (shapeQ i) ≠ -1 → 0 ≤ out i := by
        intro hne
        have h1 := h.valid i (by omega)
        by_cases h0 : ρ (shapeQ i) = 0
        · obtain ⟨h2, h3⟩ := h.copy i (by omega) h0
          have := hpos i h2
          omega
        · have := h.keep i (by omega) (by omega)
          omega
      simp only [Expr.eval, PExpr.eval, ih.2, he, lift2, Option.bind_some, Option.map_some, Cmp.holds,
        decide_eq_true_eq]
      by_cases hm1 : ρ (shapeQ i) = -1
      · simp [hm1]
      · have := hout hm1
        have h2 : ¬ (out i = -1) := by omega
        simp [hm1, h2]

/-- What is left out on both sides has the same product. -/
theorem split_prod {l : List Nat} (hl : l.Nodup) {n : Nat} (hb : ∀ k ∈ l, k < n) (f : Nat → Int) :
    (∏ k ∈ (range n).filter (· ∉ l), f k) * (l.map f).prod = ∏ k ∈ range n, f k := by
  rw [← prod_filter_mul_prod_filter_not (range n) (· ∉ l) f]
  congr 1
  have : (range n).filter (fun k => ¬ k ∉ l) = l.toFinset := by
    ext k
    simp only [mem_filter, mem_range, not_not, List.mem_toFinset]
    exact ⟨fun h => h.2, fun h => ⟨hb k h, h⟩⟩
  rw [this, List.prod_toFinset f hl]

theorem prod_map_congr {l : List (Nat × Nat)} {f g : Nat → Int} (h : ∀ p ∈ l, f p.1 = g p.2) :
    ((l.map Prod.fst).map f).prod = ((l.map Prod.snd).map g).prod := by
  congr 1
  rw [List.map_map, List.map_map]
  exact List.map_congr_left h

/-- The extent asked for by -1 is the quotient. -/
theorem quotient_spec {n m : Nat} {d s out : Nat → Int} (h : ReshapeTo n m d s out)
    {b : List (Nat × Nat)} (h1 : (b.map Prod.fst).Nodup) (h2 : (b.map Prod.snd).Nodup)
    (hb1 : ∀ p ∈ b, p.1 < m) (hb2 : ∀ p ∈ b, p.2 < n)
    (heq : ∀ p ∈ b, s p.1 = d p.2 ∧ 0 < d p.2)
    {i : Nat} (hi : i < m) (hs : s i = -1) :
    (∏ k ∈ (range n).filter (· ∉ b.map Prod.snd), d k) =
      (∏ j ∈ (range m).filter (· ∉ b.map Prod.fst), if s j = -1 then 1 else out j) * out i := by
  set w : Nat → Int := fun j => if s j = -1 then 1 else out j with hw
  have e1 := split_prod h2 (n := n) (by
    intro k hk
    obtain ⟨p, hp, rfl⟩ := List.mem_map.1 hk
    exact hb2 p hp) d
  have e2 := split_prod h1 (n := m) (by
    intro k hk
    obtain ⟨p, hp, rfl⟩ := List.mem_map.1 hk
    exact hb1 p hp) w
  have e3 : ((b.map Prod.fst).map w).prod = ((b.map Prod.snd).map d).prod := by
    apply prod_map_congr
    intro p hp
    obtain ⟨q1, q2⟩ := heq p hp
    have : s p.1 ≠ -1 := by omega
    rw [hw]
    simp only [this, if_false]
    rw [h.keep p.1 (hb1 p hp) (by omega), q1]
  have hP : ((b.map Prod.snd).map d).prod ≠ 0 := by
    intro h0
    rw [List.prod_eq_zero_iff] at h0
    obtain ⟨k, hk, hk0⟩ := List.mem_map.1 h0
    obtain ⟨p, hp, rfl⟩ := List.mem_map.1 hk
    have := (heq p hp).2
    omega
  have e4 : ∏ j ∈ range m, out j = (∏ j ∈ range m, w j) * out i := by
    have hmem : i ∈ range m := mem_range.2 hi
    rw [← mul_prod_erase _ _ hmem, ← mul_prod_erase _ w hmem]
    have : ∀ j ∈ (range m).erase i, w j = out j := by
      intro j hj
      rw [mem_erase, mem_range] at hj
      have : s j ≠ -1 := fun hc => hj.1 (h.one j hj.2 i hi hc hs)
      simp [hw, this]
    rw [prod_congr rfl this]
    simp [hw, hs]
    ring
  rw [h.count, ← e1, ← e2, e3] at e4
  have : (∏ k ∈ (range n).filter (· ∉ b.map Prod.snd), d k) * ((b.map Prod.snd).map d).prod =
      ((∏ j ∈ (range m).filter (· ∉ b.map Prod.fst), w j) * out i) * ((b.map Prod.snd).map d).prod := by
    rw [e4]; ring
  exact mul_right_cancel₀ hP this

theorem floorQ_mul (x y : Int) (hy : y ≠ 0) : floorQ (y * x) y = x := by
  unfold floorQ
  have : ((y : Int) : ℚ) ≠ 0 := by exact_mod_cast hy
  rw [Int.cast_mul, mul_div_cancel_left₀ _ this, Int.floor_intCast]

end Verif.Shape
