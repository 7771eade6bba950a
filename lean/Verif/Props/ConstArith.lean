import Verif.ConstProp.ArithNormal
import Verif.Rewrite.CheckIn
import Verif.Rewrite.Check
import Mathlib.Data.ZMod.Basic

/-!
# C99: arithmetic with constants is rearranged without changing its value, and the rearrangement ends
-/

namespace Verif.Props

open Verif Verif.Rewrite Verif.ConstProp

variable {V : Type} [Inhabited V] [DecidableEq V]

/-- Whatever patterns are applied, wherever and in whatever order, an expression keeps its value: for every shape, with
broadcasting, over every commutative ring. `Honest` says that the recorded types are true, that they name what constant
operands settle, and that ranks are known. Missing (`_partial`): values of unknown rank (`C99_unranked_false`) and the
rounding of floating-point sums (`C99_rounding_false`). -/
theorem C99_value_partial [CommRing V] {A : Alg V} (hA : ConstAlg A)
    (F : ℕ → Tensor V → Tensor V → Option (Tensor V)) (env : ℕ → Tensor V) {e e' : CE V}
    (h : Relation.ReflTransGen (fun e e' => ∃ I, Honest A F env I ∧ CStep A I e e') e e') {y : Tensor V}
    (hy : e.eval A F env = some y) : e'.eval A F env = some y := by
  induction h with
  | refl => exact hy
  | tail _ h ih =>
    obtain ⟨I, hI, hs⟩ := h
    exact step_sound hA hI hs ih

/-- No order of application goes on for ever, whatever the compiler knows of the graph at each step (the arithmetic of
the constants plays no role either). -/
theorem C99_terminates (A : Alg V) (f : ℕ → CE V) : ¬ ∀ n, ∃ I, CStep A I (f n) (f (n + 1)) := by
  intro h
  refine (wellFounded_iff_isEmpty_descending_chain.1 (dec_wf (V := V))).false ⟨f, fun n => ?_⟩
  obtain ⟨I, hI⟩ := h n
  exact step_dec hI

/-- Where nothing restrains the patterns, they leave at most one constant in every sum and in every product, and it is
the right operand of the outermost operator. -/
theorem C99_one_constant {A : Alg V} {I : CInfo V} (hI : I.Permissive)
    {F : ℕ → Tensor V → Tensor V → Option (Tensor V)} {env : ℕ → Tensor V} {b : Bin} (hb : b = .add ∨ b = .mul)
    {e : CE V} (hs : ∀ e', ¬ CStep A I e e') (hd : e.AllDense) (he : (e.eval A F env).isSome) :
    e.constants b ≤ 1 ∧ (e.constants b = 1 → isConst e = true ∨ ∃ x c, e = .bin b x c ∧ isConst c = true) := by
  rcases stuck_constants hI hb e hs hd he with h | ⟨h, h'⟩ | ⟨x, c, h1, -, h2, h⟩
  · exact ⟨by omega, fun h2 => by omega⟩
  · exact ⟨by omega, fun _ => .inl h'⟩
  · exact ⟨by omega, fun _ => .inr ⟨x, c, h1, h2⟩⟩

/-- A matrix product with a matrix of zeros is replaced by zeros only if its elements are integers (with NaN or an
infinity the product is not zero). -/
theorem C99_matmul_integers {A : Alg V} {I : CInfo V} {e e' : CE V}
    (h : CRule.mmZerosLhs.apply A I e = some e' ∨ CRule.mmZerosRhs.apply A I e = some e') : I.intType e = true := by
  rcases h with h | h
  · obtain ⟨t, y, s, -, -, h1, -⟩ := matMulZerosOnLhs_some h
    exact h1
  · obtain ⟨t, y, s, -, -, h1, -⟩ := matMulZerosOnRhs_some h
    exact h1

/-! ### Where the full property fails -/

/-- Types of unknown rank. -/
def noTypes : CInfo ℚ where
  ty _ := none
  oneUse _ := true
  intType _ := false
  bounded _ := true

theorem qAlg_const : ConstAlg qAlg where
  add _ _ := rfl
  mul _ _ := rfl
  zero := rfl
  one := rfl
  sub _ _ := rfl
  neg _ := rfl
  div_one x := by show x / 1 = x; simp

/-- Adding zeros that enlarge a value of unknown rank is dropped: `x + zeros(3)` becomes `x`, although the recorded
types are true (nothing is known of either value). -/
theorem C99_unranked_false : ∃ (e e' : CE ℚ) (env : ℕ → Tensor ℚ) (y : Tensor ℚ),
    (∀ e t, e.eval qAlg (fun _ _ _ => none) env = some t → HasCType t (noTypes.ty e)) ∧
    (∀ b x d c, Settled c (noTypes.ty (.bin b x (.cst d (build c fun _ => 0))))) ∧
    CStep qAlg noTypes e e' ∧ e.eval qAlg (fun _ _ _ => none) env = some y ∧
    e'.eval qAlg (fun _ _ _ => none) env ≠ some y := by
  refine ⟨.bin .add (.val 0) (.cst true ⟨[3], [0, 0, 0], rfl⟩), .val 0, fun _ => qiota [1], ⟨[3], [1, 1, 1], rfl⟩,
    fun _ _ _ => trivial, fun _ _ _ _ => trivial, .root .addZeros rfl rfl, by decide +kernel, by decide +kernel⟩

/-- Sums of integers in binary32: up to 2^24 they are exact, up to 2^25 the even numbers are representable and a tie goes
to the multiple of four (only this range is used). -/
def roundBig (n : ℤ) : ℤ := if n.natAbs ≤ 2 ^ 24 then n else if n % 4 = 1 then n - 1 else if n % 4 = 3 then n + 1 else n

/-- Integers with sums rounded as in binary32. -/
def fAlg : Alg ℤ := { zAlg with bin := fun b x y => if b = .add then roundBig (x + y) else zAlg.bin b x y }

/-- Rounding: `(1 + 2^24) + (-2^24)` is 0 in binary32, and 1 once the constants are gathered. -/
theorem C99_rounding_false : ∃ (e e' : CE ℤ) (env : ℕ → Tensor ℤ) (I : CInfo ℤ) (y : Tensor ℤ),
    Honest fAlg (fun _ _ _ => none) env I ∧ CStep fAlg I e e' ∧ e.eval fAlg (fun _ _ _ => none) env = some y ∧
    e'.eval fAlg (fun _ _ _ => none) env ≠ some y := by
  refine ⟨.bin .add (.bin .add (.val 0) (.cst true ⟨[1], [2 ^ 24], rfl⟩)) (.cst true ⟨[1], [-2 ^ 24], rfl⟩),
    .bin .add (.val 0) (.bin .add (.cst true ⟨[1], [2 ^ 24], rfl⟩) (.cst true ⟨[1], [-2 ^ 24], rfl⟩)),
    fun _ => iota [1], exactInfo _ _ _ true, ⟨[1], [0], rfl⟩, honest_exact _ _ _ _,
    .root (.associative1 .add) rfl rfl, by decide +kernel, by decide +kernel⟩

/-! ### The hypotheses are met -/

/-- Integers of 32 bits, which wrap around, form such an algebra (paired with an unbounded integer, because `Alg` reads
integers back). -/
def wAlg : Alg (ℤ × ZMod (2 ^ 32)) where
  un n _ v := if n = "Neg" then -v else v
  bin b x y := match b with
    | .add => x + y
    | .sub => x - y
    | .mul => x * y
    | _ => x
  cast _ v := v
  ofInt n := (n, n)
  ofRat q := (q.num / q.den, (q.num / q.den : ℤ))
  toInt v := v.1
  truth v := v ≠ 0
  toInt_ofInt _ := rfl

example : ConstAlg wAlg where
  add _ _ := rfl
  mul _ _ := rfl
  zero := by simp [wAlg]
  one := by simp [wAlg]
  sub _ _ := rfl
  neg _ := rfl
  div_one _ := rfl

/-- `(c1 + x) + (y - c2)` with a broadcast between all of them. -/
def sumQ : CE ℚ :=
  .bin .add (.bin .add (.cst true (qiota [2, 1])) (.val 0)) (.bin .sub (.val 1) (.cst true (qiota [3])))

def envQ : ℕ → Tensor ℚ := fun k => if k = 0 then qiota [2, 3] else qiota [1, 1]

/-- Three steps and a value. -/
example : ∃ (e' : CE ℚ) (y : Tensor ℚ),
    Relation.ReflTransGen (fun e e' => ∃ I, Honest qAlg (fun _ _ _ => none) envQ I ∧ CStep qAlg I e e') sumQ e' ∧
    sumQ.eval qAlg (fun _ _ _ => none) envQ = some y ∧ e'.constants .add = 2 := by
  have h := honest_exact qAlg (fun _ _ _ => none) envQ false
  refine ⟨.bin .add (.bin .add (.val 0) (.val 1)) (.bin .add (.cst true (qiota [2, 1]))
      (.cst true ((qiota [3]).map (qAlg.un "Neg" [])))), ⟨[2, 3], [2, 2, 2, 6, 6, 6], rfl⟩, ?_, by decide +kernel, rfl⟩
  refine ((Relation.ReflTransGen.refl.tail ⟨_, h, .binL (.root (.commutative .add) rfl rfl)⟩).tail
    ⟨_, h, .binR (.root .subToNeg rfl rfl)⟩).tail ⟨_, h, .root (.associative4 .add) rfl rfl⟩

/-- A permissive state of knowledge, in which `x + c` is what is left. -/
example : ∃ I : CInfo ℚ, I.Permissive ∧ (CE.bin .add (.val 0) (.cst true (qiota [3])) : CE ℚ).AllDense ∧
    ∀ e', ¬ CStep qAlg I (.bin .add (.val 0) (.cst true (qiota [3]))) e' := by
  refine ⟨⟨fun e => match e with | .val _ => some [none, none] | _ => some [none, some 3], fun _ => true,
    fun _ => false, fun _ => true⟩, ⟨fun _ => rfl, fun _ => rfl, fun e => by cases e <;> rfl⟩, ⟨trivial, rfl⟩, ?_⟩
  have leaf : ∀ (I : CInfo ℚ) (e e' : CE ℚ), (∃ k, e = .val k) ∨ (∃ t, e = .cst true t) → ¬ CStep qAlg I e e' := by
    rintro I e e' (⟨k, rfl⟩ | ⟨t, rfl⟩) h
    · cases h with
      | root r hr h => cases r <;> cases h
    · cases h with
      | root r hr h => cases r <;> cases h
  intro e' h
  cases h with
  | binL h => exact leaf _ _ _ (.inl ⟨_, rfl⟩) h
  | binR h => exact leaf _ _ _ (.inr ⟨_, rfl⟩) h
  | root r hr h =>
    cases r with
    | commutative b => cases b <;> cases h
    | associative1 b => cases b <;> cases h
    | associative2 b => cases b <;> cases h
    | associative3 b => cases b <;> cases h
    | associative4 b => cases b <;> cases h
    | fold b => cases b <;> cases h
    | addZeros =>
      obtain ⟨t, h1, -, h2, -⟩ := neutralOnRhs_some h
      cases h1
      cases h2
    | _ => cases h

end Verif.Props
