import Verif.ConstProp.FoldSingle

/-!
# C100: folding of integer constants
-/

namespace Verif.Props

open Verif.ConstProp

/-- **C100 (partial)**. Element by element, a folded expression over integer and boolean constants is what the generated
code computes for it, provided no operator wraps around below one that looks at more than low bits (a comparison, a
quotient, a remainder, Min, Max, Abs, Relu, a cast to `bool` or to a wider type), no remainder with `fmod` set has
operands on which the two remainders differ, and Abs is applied to numbers up to `2 ^ 53`. Missing: the expressions left
out, for which the claim is false (below), and expressions whose folding is undefined. -/
theorem C100_value_partial {t : IT} (e : FE t) (hok : e.Ok) (ht : e.Tame false) (v v' : BitVec t.bits)
    (hf : e.folded = some v) (hs : e.spec = some v') : v = v' := folded_eq e hok ht hf hs

/-- Not a trivial case: `Less(Sub(Mul(5, 7), 40) : int8, 3)`. -/
example : let e : FE .bool := (.cmp (t := .int true 8) .lt .fresh
      (.bin .sub .first (.bin .mul .fresh (.lit 5#8) (.lit 7#8)) (.lit 40#8)) (.lit 3#8))
    e.Ok ∧ e.Tame false ∧ e.folded = some 1#1 ∧ e.spec = some 1#1 := by
  refine ⟨⟨⟨⟨⟨by decide, by decide⟩, ⟨by decide, by decide⟩⟩, ⟨by decide, by decide⟩⟩, ⟨by decide, by decide⟩⟩,
    ⟨⟨⟨trivial, trivial, ?_⟩, trivial, ?_⟩, trivial⟩, by decide +kernel, by decide +kernel⟩
  · intro a b v ha hb hv
    rw [← Option.some.inj ha, ← Option.some.inj hb] at hv ⊢
    rw [← Option.some.inj hv]
    exact ⟨by intro h; exact absurd h (by decide), fun _ => Or.inr (by show (5#8 * 7#8).toInt = (5#8).toInt * (7#8).toInt; decide +kernel)⟩
  · intro a b v ha hb hv
    rw [← Option.some.inj ha, ← Option.some.inj hb] at hv ⊢
    rw [← Option.some.inj hv]
    exact ⟨by intro h; exact absurd h (by decide), fun _ => Or.inr (by
      show (5#8 * 7#8 - 40#8).toInt = (5#8 * 7#8).toInt - (40#8).toInt; decide +kernel)⟩

/-- **C100**. Expressions of sums, differences, products, negations, operators on bits, selections, and casts to types
that are not wider: a folded element is what the generated code computes, however often it wraps around on the way. -/
theorem C100_ring {t : IT} (e : FE t) (hok : e.Ok) (hr : e.Ring) (v : BitVec t.bits) (hf : e.folded = some v) :
    e.spec = some v := by
  obtain ⟨v', hs⟩ := ring_spec e hr
  rw [hs, folded_eq e hok (ring_tame e hok hr) hf hs]

/-- Not a trivial case: `Cast<uint8>(Mul(Add(30000, 30000), 101)) : int16`, which wraps around three times. -/
example : let e : FE (.int false 8) := (.cast (t := .int true 16) (.int false 8)
      (.bin .mul .fresh (.bin .add .first (.lit 30000#16) (.lit 30000#16)) (.lit 101#16)))
    e.Ok ∧ e.Ring ∧ e.folded = some 224#8 ∧ e.spec = some 224#8 :=
  ⟨⟨⟨by decide, by decide⟩, ⟨⟨by decide, by decide⟩, ⟨by decide, by decide⟩⟩, ⟨by decide, by decide⟩⟩,
    ⟨by decide, by decide, by decide, by decide, ⟨by decide, by decide, trivial, trivial⟩, trivial⟩,
    by decide +kernel, by decide +kernel⟩

/-- **C100**. One operator with two operands on constants of at most 32 bits (and `bool`) always folds, to what the
generated code computes; Mod of unsigned numbers and Mod with `fmod` on operands of different signs are left out. -/
theorem C100_single_binary {t : IT} (hok : t.Ok) (hb : t.bits ≤ 32) (o : IBin) (s : Store) (a b v : BitVec t.bits)
    (hu : ∀ n, t = .int false n → o ≠ .mod ∧ o ≠ .fmod)
    (hm : o = .fmod → (val t a).fmod (val t b) = (val t a).tmod (val t b))
    (hs : specBin t o a b = some v) : (FE.bin o s (.lit a) (.lit b)).folded = some v :=
  bin_single hok hb o s a b v hu hm hs

/-- Not a trivial case: `Mod(-7, 3) : int8` is 2, and `Div(-128, -1) : int8` wraps around. -/
example : (FE.bin (t := .int true 8) .mod .fresh (.lit (-7)) (.lit 3)).folded = some 2#8 ∧
    (FE.bin (t := .int true 8) .div .fresh (.lit (-128)) (.lit (-1))).folded = some (-128) :=
  ⟨C100_single_binary (t := .int true 8) ⟨by decide, by decide⟩ (by decide) .mod .fresh (-7) 3 2
      (fun n h => absurd h (by simp)) (fun h => absurd h (by decide)) (by decide +kernel),
    C100_single_binary (t := .int true 8) ⟨by decide, by decide⟩ (by decide) .div .fresh (-128) (-1) (-128)
      (fun n h => absurd h (by simp)) (fun h => absurd h (by decide)) (by decide +kernel)⟩

/-- **C100**. One operator with one operand on constants of at most 32 bits always folds, to what the generated code
computes. -/
theorem C100_single_unary {t : IT} (hok : t.Ok) (hb : t.bits ≤ 32) (o : IUn) (a v : BitVec t.bits)
    (hs : specUn t o a = some v) : (FE.un o (.lit a)).folded = some v := un_single hok hb o a v hs

/-- Not a trivial case: Abs of the smallest `int32`. -/
example : (FE.un (t := .int true 32) .abs (.lit (BitVec.intMin 32))).folded = some (BitVec.intMin 32) :=
  C100_single_unary (t := .int true 32) ⟨by decide, by decide⟩ (by decide) .abs _ _ (by decide +kernel)

/-- **C100**. One comparison of constants of any type always folds, to what the generated code computes. -/
theorem C100_single_compare {t : IT} (hok : t.Ok) (o : ICmp) (s : Store) (a b : BitVec t.bits) (c : Bool)
    (hs : specCmp t o a b = some c) : (FE.cmp o s (.lit a) (.lit b)).folded = some (BitVec.ofBool c) :=
  cmp_single hok o s a b c hs

/-- Not a trivial case: `200 < 100` as `uint8` and as `int8`. -/
example : (FE.cmp (t := .int false 8) .lt .fresh (.lit 200) (.lit 100)).folded = some 0#1 ∧
    (FE.cmp (t := .int true 8) .lt .fresh (.lit 200) (.lit 100)).folded = some 1#1 :=
  ⟨C100_single_compare (t := .int false 8) ⟨by decide, by decide⟩ .lt .fresh 200 100 false (by decide +kernel),
    C100_single_compare (t := .int true 8) ⟨by decide, by decide⟩ .lt .fresh 200 100 true (by decide +kernel)⟩

/-- **C100**. Clip with both bounds, on integers of any width, folds to what ONNX defines: the minimum of the upper bound
and the maximum of the number and the lower bound. -/
theorem C100_clip (s : Bool) (n : ℕ) (hok : IT.Ok (.int s n)) (a lo hi : BitVec n) :
    (clip (t := .int s n) (.lit a) (some (.lit lo)) (some (.lit hi))).folded
      = (specBin (.int s n) .max a lo).bind fun m => specBin (.int s n) .min m hi := by
  have hf : ∃ v, (clip (t := .int s n) (.lit a) (some (.lit lo)) (some (.lit hi))).folded = some v := by
    cases s <;> exact ⟨_, rfl⟩
  have hs : ∃ v, (clip (t := .int s n) (.lit a) (some (.lit lo)) (some (.lit hi))).spec = some v := by
    cases s <;> exact ⟨_, rfl⟩
  obtain ⟨v, hv⟩ := hf
  obtain ⟨v', hv'⟩ := hs
  have ht : (clip (t := .int s n) (.lit a) (some (.lit lo)) (some (.lit hi))).Tame false :=
    ⟨⟨trivial, trivial, fun _ _ _ _ _ _ => ⟨fun h => absurd h (by decide), fun _ => Or.inr trivial⟩⟩, trivial,
      fun _ _ _ _ _ _ => ⟨fun h => absurd h (by decide), fun _ => Or.inr trivial⟩⟩
  have ho : (clip (t := .int s n) (.lit a) (some (.lit lo)) (some (.lit hi))).Ok := ⟨⟨hok, hok⟩, hok⟩
  rw [hv, folded_eq _ ho ht hv hv', ← hv']
  rfl

/-- Not a trivial case: `Clip(-100, -5, 7) : int64`. -/
example : (clip (t := .int true 64) (.lit (-100)) (some (.lit (-5))) (some (.lit 7))).folded = some (-5) := by
  rw [C100_clip true 64 ⟨by decide, by decide⟩]
  decide +kernel

/-- **C100**. Clip without bounds leaves unsigned numbers as they are. -/
theorem C100_clip_unsigned (n : ℕ) (hok : IT.Ok (.int false n)) (a : BitVec n) :
    (clip (t := .int false n) (.lit a) none none).folded = some a := by
  refine (C100_clip false n hok a 0 (BitVec.allOnes n)).trans ?_
  have h1 : a.ult 0 = false := by
    rw [← Bool.not_eq_true, BitVec.ult_iff_lt]
    exact BitVec.not_lt_zero
  have e : (specBin (.int false n) .max a 0).bind (fun m => specBin (.int false n) .min m (BitVec.allOnes n))
      = some (if (if a.ult 0 then 0 else a).ult (BitVec.allOnes n) then (if a.ult 0 then 0 else a) else BitVec.allOnes n) := rfl
  have h3 : (if a.ult 0 = true then 0 else a) = a := by rw [h1]; rfl
  rw [e, h3]
  by_cases h2 : a.ult (BitVec.allOnes n) = true
  · rw [if_pos h2]
  · rw [if_neg h2]
    have : BitVec.allOnes n ≤ a := by
      rw [BitVec.ult_iff_lt] at h2
      exact BitVec.not_lt.1 h2
    rw [BitVec.allOnes_le_iff.1 this]

/-- Not a trivial case. -/
example : (clip (t := .int false 8) (.lit 200) none none).folded = some 200#8 :=
  C100_clip_unsigned 8 ⟨by decide, by decide⟩ 200

/-- **C100 fails for Clip without bounds on signed numbers**: the bounds that stand for the missing ones are those of
unsigned numbers, so that without an upper bound every number becomes -1 or less, and without a lower bound no number is
below 0. `Clip(5)` folds to -1, `Clip(5, min = 0)` to -1, `Clip(-3, max = 7)` to 0. -/
theorem C100_clip_false :
    (clip (t := .int true 32) (.lit 5) none none).folded = some (-1) ∧
    (clip (t := .int true 32) (.lit 5) (some (.lit 0)) none).folded = some (-1) ∧
    (clip (t := .int true 32) (.lit (-3)) none (some (.lit 7))).folded = some 0 := by
  decide +kernel

/-- **C100 fails for chains of operators**: intermediate results are not cut to their type. `Less(Add(100, 100), 0)` as
`int8` is true, since the sum is -56, but folds to false; `Equal(Add(200, 100), 44)` as `uint8` is true but folds to
false; `Relu(Neg(-128))` as `int8` is 0 but folds to -128. -/
theorem C100_chain_false :
    (∃ e : FE .bool, e = .cmp (t := .int true 8) .lt .fresh (.bin .add .fresh (.lit 100) (.lit 100)) (.lit 0) ∧
      e.Ok ∧ e.spec = some 1#1 ∧ e.folded = some 0#1) ∧
    (∃ e : FE .bool, e = .cmp (t := .int false 8) .eq .fresh (.bin .add .fresh (.lit 200) (.lit 100)) (.lit 44) ∧
      e.Ok ∧ e.spec = some 1#1 ∧ e.folded = some 0#1) ∧
    (∃ e : FE (.int true 8), e = .un .relu (.un .neg (.lit (-128))) ∧
      e.Ok ∧ e.spec = some 0#8 ∧ e.folded = some (-128)) :=
  ⟨⟨_, rfl, ⟨⟨⟨by decide, by decide⟩, ⟨by decide, by decide⟩⟩, ⟨by decide, by decide⟩⟩, by decide +kernel, by decide +kernel⟩,
    ⟨_, rfl, ⟨⟨⟨by decide, by decide⟩, ⟨by decide, by decide⟩⟩, ⟨by decide, by decide⟩⟩, by decide +kernel, by decide +kernel⟩,
    ⟨_, rfl, ⟨by decide, by decide⟩, by decide +kernel, by decide +kernel⟩⟩

/-- **C100 fails for casts**: a cast to a narrower type does not cut the number. `Cast<int32>(Cast<int8>(300))` is 44 but
folds to 300; `Cast<bool>(Cast<uint8>(256))` is false but folds to true. -/
theorem C100_cast_false :
    (∃ e : FE (.int true 32), e = .cast (t := .int true 8) _ (.cast (t := .int true 32) _ (.lit 300)) ∧
      e.Ok ∧ e.spec = some 44#32 ∧ e.folded = some 300#32) ∧
    (∃ e : FE .bool, e = .cast (t := .int false 8) _ (.cast (t := .int false 32) _ (.lit 256)) ∧
      e.Ok ∧ e.spec = some 0#1 ∧ e.folded = some 1#1) :=
  ⟨⟨_, rfl, ⟨⟨by decide, by decide⟩, ⟨by decide, by decide⟩, ⟨by decide, by decide⟩⟩, by decide +kernel, by decide +kernel⟩,
    ⟨_, rfl, ⟨trivial, ⟨by decide, by decide⟩, ⟨by decide, by decide⟩⟩, by decide +kernel, by decide +kernel⟩⟩

/-- **C100 fails for Mod with `fmod`**: the attribute is not looked at. `Mod(-7, 3, fmod = 1)` is -1 but folds to 2. -/
theorem C100_fmod_false :
    ∃ e : FE (.int true 32), e = .bin .fmod .fresh (.lit (-7)) (.lit 3) ∧
      e.Ok ∧ e.spec = some (-1) ∧ e.folded = some 2 :=
  ⟨_, rfl, ⟨⟨by decide, by decide⟩, ⟨by decide, by decide⟩⟩, by decide +kernel, by decide +kernel⟩

/-- **C100 fails for Abs on 64 bits**: it goes through `double`. The absolute value of `2 ^ 53 + 1` folds to `2 ^ 53`. -/
theorem C100_abs_false :
    ∃ e : FE (.int true 64), e = .un .abs (.lit (2 ^ 53 + 1)) ∧
      e.Ok ∧ e.spec = some (2 ^ 53 + 1) ∧ e.folded = some (2 ^ 53) :=
  ⟨_, rfl, ⟨by decide, by decide⟩, by decide +kernel, by decide +kernel⟩

/-- **C100 fails for Mod of unsigned numbers and for casts of boolean constants to signed numbers**: the compiler stops
(with assertions; `Mod` has no instance for `uint64_t`), although the expression has a value. A remainder by zero and the
smallest `int64` divided by -1 stop it as well. -/
theorem C100_crash_false :
    (∃ e : FE (.int false 8), e = .bin .mod .fresh (.lit 7) (.lit 3) ∧ e.Ok ∧ e.spec = some 1 ∧ e.folded = none) ∧
    (∃ e : FE (.int true 32), e = .cast (t := .bool) _ (.lit 1) ∧ e.Ok ∧ e.spec = some 1 ∧ e.folded = none) ∧
    (∃ e : FE (.int true 64), e = .bin .div .fresh (.lit (BitVec.intMin 64)) (.lit (-1)) ∧
      e.Ok ∧ e.spec = some (BitVec.intMin 64) ∧ e.folded = none) ∧
    (FE.bin (t := .int true 32) .mod .fresh (.lit 7) (.lit 0)).folded = none :=
  ⟨⟨_, rfl, ⟨⟨by decide, by decide⟩, ⟨by decide, by decide⟩⟩, by decide +kernel, by decide +kernel⟩,
    ⟨_, rfl, ⟨⟨by decide, by decide⟩, trivial⟩, by decide +kernel, by decide +kernel⟩,
    ⟨_, rfl, ⟨⟨by decide, by decide⟩, ⟨by decide, by decide⟩⟩, by decide +kernel, by decide +kernel⟩,
    by decide +kernel⟩

end Verif.Props
