import Verif.Rewrite.Check
import Mathlib.Algebra.Order.Floor.Ring
import Mathlib.Data.Rat.Floor

/-! # The checks of `Check.lean` for other element arithmetics, used for concrete examples -/

namespace Verif.Rewrite

variable {V : Type} [Inhabited V]

/-- Rational numbers as elements, for examples. -/
def qAlg : Alg ℚ where
  un n _ v := if n = "Neg" then -v else if n = "Relu" then max v 0
    else if n = "Sqrt" then (v.num.natAbs.sqrt : ℚ) / v.den.sqrt else v
  bin b x y := match b with
    | .add => x + y
    | .sub => x - y
    | .mul => x * y
    | .div => x / y
    | .pow => x ^ y.num.toNat
    | .equal => if x = y then 1 else 0
    | .less => if x < y then 1 else 0
    | .greater => if x > y then 1 else 0
    | .and => if x ≠ 0 ∧ y ≠ 0 then 1 else 0
    | .or => if x ≠ 0 ∨ y ≠ 0 then 1 else 0
    | .xor => if (x ≠ 0) ≠ (y ≠ 0) then 1 else 0
    | .max => max x y
    | .min => min x y
  cast d v := if d.kind = .bool then (if v = 0 then 0 else 1) else if d.kind = .float then v else (v.num / v.den : ℤ)
  ofInt n := n
  ofRat q := q
  toInt v := v.num
  truth v := v ≠ 0
  toInt_ofInt n := rfl

/-- The tensor with the elements 1, 2, 3, ... -/
def qiota (s : List ℕ) : Tensor ℚ := ⟨s, (List.range s.prod).map fun (k : ℕ) => (k : ℚ) + 1, by simp⟩

/-- A fragment on which a pattern applies, with a value that it keeps. -/
def AppliesIn (A : Alg V) (rule : Ex V → Outcome V) (env : ℕ → Tensor V) (e : Ex V) : Prop :=
  (∃ e', rule e = .into e') ∧ Typed A env e ∧ ∃ t, eval A env e = some (some t)

/-- A fragment whose value a pattern changes, or that it replaces by one that has no value. -/
def BreaksIn (A : Alg V) (rule : Ex V → Outcome V) (env : ℕ → Tensor V) (e : Ex V) : Prop :=
  ∃ e' t, rule e = .into e' ∧ Typed A env e ∧ eval A env e = some (some t) ∧ eval A env e' ≠ some (some t)

/-- A pattern whose replacement carries wrong types. -/
def MistypesIn (A : Alg V) (rule : Ex V → Outcome V) (env : ℕ → Tensor V) (e : Ex V) : Prop :=
  ∃ e', rule e = .into e' ∧ Typed A env e ∧ (∃ t, eval A env e = some (some t)) ∧ ¬ Typed A env e'

def intoIn (rule : Ex V → Outcome V) (e : Ex V) : Option (Ex V) :=
  match rule e with
  | .into e' => some e'
  | _ => none

omit [Inhabited V] in
theorem intoIn_some {rule : Ex V → Outcome V} {e e' : Ex V} (h : intoIn rule e = some e') : rule e = .into e' := by
  unfold intoIn at h
  split at h
  · cases h; assumption
  · cases h

theorem appliesIn_of {A : Alg V} {rule : Ex V → Outcome V} {env : ℕ → Tensor V} {e : Ex V}
    (h : ((intoIn rule e).isSome && typedB A env e && ((eval A env e).bind id).isSome) = true) :
    AppliesIn A rule env e := by
  rw [Bool.and_eq_true, Bool.and_eq_true, Option.isSome_iff_exists, Option.isSome_iff_exists] at h
  obtain ⟨⟨⟨e', h1⟩, h2⟩, t, h3⟩ := h
  rw [Option.bind_eq_some_iff] at h3
  obtain ⟨o, h3, h4⟩ := h3
  exact ⟨⟨e', intoIn_some h1⟩, typedB_typed h2, t, by rw [h3]; exact congrArg some h4⟩

theorem breaksIn_of [DecidableEq V] {A : Alg V} {rule : Ex V → Outcome V} {env : ℕ → Tensor V} {e : Ex V}
    (h : (match intoIn rule e with
      | some e' => typedB A env e && ((eval A env e).bind id).isSome && decide (eval A env e' ≠ eval A env e)
      | none => false) = true) : BreaksIn A rule env e := by
  split at h
  · rename_i e' h1
    rw [Bool.and_eq_true, Bool.and_eq_true, decide_eq_true_eq, Option.isSome_iff_exists] at h
    obtain ⟨⟨h2, t, h3⟩, h4⟩ := h
    rw [Option.bind_eq_some_iff] at h3
    obtain ⟨o, h3, h5⟩ := h3
    have h3 : eval A env e = some (some t) := by rw [h3]; exact congrArg some h5
    exact ⟨e', t, intoIn_some h1, typedB_typed h2, h3, h3 ▸ h4⟩
  · cases h

end Verif.Rewrite
