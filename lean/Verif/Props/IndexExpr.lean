import Verif.IndexExpr.Known
import Mathlib.Tactic.NormNum

/-!
# Property C33: index expressions

`Verif/IndexExpr/Spec.lean` says what an expression means (`Expr.eval`). `Expr.gen` is the code the
compiler generates, `Expr.infer` what shape inference reports, when `κ` tells which quantities are
known at compile time.
-/

namespace Verif.Props
open Verif.IndexExpr

/-- **C33**. Let `κ` know some of the quantities, correctly. Then for every expression with a value:
the generated code computes that value; shape inference, if it reports a number, reports that value;
and if everything is known, both yield that very number at compile time.

Missing (all three are false of the code, see below): differences whose subtrahend contains a
minimum or maximum, remainders of negative numbers, divisions of numbers `double` does not represent. -/
theorem C33_index_expressions_partial (fl : ℚ → ℚ) (hfl : IsDouble fl) (simp : Aff → Option Int)
    (hs : SimpOk simp) (ρ : Nat → Int) (κ : Nat → Option Int) (hκ : ∀ x n, κ x = some n → ρ x = n)
    (e : Expr) (hok : e.Ok ρ) (r : Int) (he : e.eval ρ = some r) :
    (∃ g, e.gen fl simp κ = some g ∧ g.eval ρ = some r) ∧
    (∃ q, e.infer fl κ = some q ∧ ∀ n, q = .lit n → n = r) ∧
    e.gen fl simp (fun x => some (ρ x)) = some (.lit r) ∧
    e.infer fl (fun x => some (ρ x)) = some (.lit r) := by
  have hk : ∀ x n, (fun x => some (ρ x)) x = some n → ρ x = n := fun x n h => by
    simpa using h
  obtain ⟨g, z, hg, hge, hz⟩ := gen_sound hfl hs hκ e hok
  obtain ⟨q, hq, hqe⟩ := infer_sound hfl hκ e hok
  refine ⟨⟨g, hg, by rw [hge, hz r he]⟩, ⟨q, hq, hqe r he⟩, ?_, ?_⟩
  · obtain ⟨g, z, hg, hge, hz⟩ := gen_sound hfl hs hk e hok
    have := gen_isLit (fun x => by simp) e hg
    cases g <;> simp only [IE.IsLit] at this
    rw [hg]
    simp only [IE.eval, Option.some.injEq] at hge
    rw [hge, hz r he]
  · obtain ⟨q, hq, hqe⟩ := infer_sound hfl hk e hok
    have := infer_isLit (fun x => by simp) e hq
    cases q <;> simp only [Q.IsLit] at this
    rw [hq, hqe r he _ rfl]

/-- The result of the property in terms of two compilations: what code generated without knowledge
computes is what compilation with full knowledge yields. -/
theorem C33_compile_time_is_run_time_partial (fl : ℚ → ℚ) (hfl : IsDouble fl)
    (simp : Aff → Option Int) (hs : SimpOk simp) (ρ : Nat → Int) (e : Expr) (hok : e.Ok ρ) (r : Int)
    (he : e.eval ρ = some r) :
    ∃ g, e.gen fl simp (fun _ => none) = some g ∧
      ∃ n, e.gen fl simp (fun x => some (ρ x)) = some (.lit n) ∧ g.eval ρ = some n := by
  obtain ⟨⟨g, hg, hge⟩, -, h, -⟩ :=
    C33_index_expressions_partial fl hfl simp hs ρ (fun _ => none) (by simp) e hok r he
  exact ⟨g, hg, r, h, hge⟩

/-- Any rounding that keeps all rationals is a possible `fl`, not simplifying a possible `simp`. -/
theorem C33_parameters_exist : IsDouble id ∧ SimpOk fun _ => none :=
  ⟨isDouble_id, fun _ _ h => by simp at h⟩

/-- `ceilDiv(min(clamp(d0, 0, d1), 7) + (-5), 2)` with `d0 = 20`, `d1 = 9`, the second known. -/
example : ∃ (e : Expr) (ρ : Nat → Int), e = .ceilDiv (.sub (.add (.lit 0)
      (.min (.clamp (.sym 0) (.lit 0) (.sym 1)) [.lit 7])) (.lit 5)) (.lit 2) ∧
    e.Ok ρ ∧ e.eval ρ = some 1 := by
  refine ⟨_, fun x => if x = 0 then 20 else 9, rfl, ?_, ?_⟩
  · simp [Expr.Ok, OkList, Expr.noMinMax, Expr.eval, evalList, lift2, least, DivOk]
  · simp [Expr.eval, evalList, lift2, least, ceilQ]

/-- **C33 is false** for differences: with everything unknown, the compiler turns `10 - min(x, y)`
into `min(10 - x, 10 - y)`. -/
theorem C33_sub_min_false : ∃ (e : Expr) (ρ : Nat → Int) (g : IE),
    e = .sub (.lit 10) (.min (.sym 0) [.sym 1]) ∧ e.eval ρ = some 9 ∧
    e.gen id (fun _ => none) (fun _ => none) = some g ∧ g.eval ρ = some 8 := by
  refine ⟨_, fun x => if x = 0 then 1 else 2, _, rfl, ?_, rfl, ?_⟩
  · simp [Expr.eval, evalList, lift2, least]
  · decide +kernel

/-- **C33 is false** for remainders of negative numbers: `x % 3` is computed as the remainder of
the truncated quotient at run time, of the floored quotient at compile time. -/
theorem C33_mod_negative_false : ∃ (e : Expr) (ρ : Nat → Int) (g : IE),
    e = .mod (.leaf 0) (.lit 3) ∧
    e.gen id (fun _ => none) (fun x => some (ρ x)) = some (.lit 2) ∧
    e.gen id (fun _ => none) (fun _ => none) = some g ∧ g.eval ρ = some (-1) := by
  refine ⟨_, fun _ => -1, _, rfl, rfl, rfl, ?_⟩
  decide +kernel

/-- Clamping to an empty range, which slicing an empty dimension does, gives the lower bound at
compile time and the upper bound at run time. -/
theorem C33_clamp_empty_false : ∃ (e : Expr) (ρ : Nat → Int) (g : IE),
    e = .clamp (.leaf 0) (.lit 0) (.sub (.leaf 1) (.lit 1)) ∧
    e.gen id (fun _ => none) (fun x => some (ρ x)) = some (.lit 0) ∧
    e.gen id (fun _ => none) (fun _ => none) = some g ∧ g.eval ρ = some (-1) := by
  refine ⟨_, fun x => if x = 0 then -1 else 0, _, rfl, rfl, rfl, ?_⟩
  decide +kernel

/-- Literal division is wrong beyond the integers `double` represents: if rounding yields even
integers from `2^53` on, as `double` does, then `(3 * 2^53 + 3) / 3` is not `2^53 + 1`. -/
theorem C33_large_division_false (fl : ℚ → ℚ) (hfl : IsDouble fl)
    (heven : ∀ q, 2 ^ 53 ≤ q → ∃ k : ℤ, fl q = 2 * k) (simp : Aff → Option Int)
    (κ : Nat → Option Int) :
    Expr.eval (fun _ => 0) (.floorDiv (.lit (3 * 2 ^ 53 + 3)) (.lit 3)) = some (2 ^ 53 + 1) ∧
    (Expr.floorDiv (.lit (3 * 2 ^ 53 + 3)) (.lit 3)).gen fl simp κ ≠ some (.lit (2 ^ 53 + 1)) := by
  constructor
  · simp [Expr.eval, lift2, floorQ]
    norm_num [Int.floor_eq_iff]
  · rw [Expr.gen, Expr.gen, Expr.gen]
    intro h
    simp [IE.floorDiv, binaryOp, IE.lit?, litFloorDiv] at h
    set q := fl 27021597764222979 / fl 3 with hq
    by_cases hle : 2 ^ 53 ≤ q
    · obtain ⟨k, hk⟩ := heven q hle
      rw [hk] at h
      have : ((2 * k : ℤ) : ℚ) = 2 * k := by push_cast; ring
      rw [← this, Int.floor_intCast] at h
      omega
    · have h1 := hfl.mono q 9007199254740992 (by norm_num at hle; linarith)
      have h2 := hfl.exact (2 ^ 53) 0 (by norm_num) (by norm_num)
      simp only [pow_zero, div_one] at h2
      push_cast at h2
      rw [h2] at h1
      have h3 := Int.floor_le (fl q)
      rw [h] at h3
      push_cast at h3
      linarith

end Verif.Props
