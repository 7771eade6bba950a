import Verif.ConstProp.FoldModel
import Mathlib.Tactic.Ring
import Mathlib.Tactic.Linarith

/-!
# Folded integers against the generated code
-/

namespace Verif.ConstProp

open Verif.Float

theorem bool_bits : IT.bits .bool = 1 := rfl

theorem int_bits (s : Bool) (n : ℕ) : IT.bits (.int s n) = n := rfl

/-- An element is given by its number. -/
theorem ofInt_val (t : IT) (v : BitVec t.bits) : BitVec.ofInt t.bits (val t v) = v := by
  match t, v with
  | .int true n, v => exact BitVec.ofInt_toInt
  | .int false n, v =>
    show BitVec.ofInt n ((v.toNat : ℕ) : ℤ) = v
    rw [BitVec.ofInt_natCast, BitVec.ofNat_toNat, BitVec.setWidth_eq]
  | .bool, v =>
    show BitVec.ofInt 1 ((v.toNat : ℕ) : ℤ) = v
    rw [BitVec.ofInt_natCast, BitVec.ofNat_toNat, BitVec.setWidth_eq]

/-- Widening keeps the number. -/
theorem widen_eq (t : IT) (h : t.Ok) (v : BitVec t.bits) : widen t v = BitVec.ofInt 64 (val t v) := by
  match t, h, v with
  | .int true n, h, v =>
    show v.signExtend 64 = BitVec.ofInt 64 v.toInt
    apply BitVec.eq_of_toInt_eq
    rw [BitVec.toInt_signExtend_of_le h.2, BitVec.toInt_ofInt]
    rw [← BitVec.toInt_signExtend_of_le (x := v) h.2, BitVec.toInt_bmod_cancel]
  | .int false n, h, v =>
    show v.setWidth 64 = BitVec.ofInt 64 ((v.toNat : ℕ) : ℤ)
    rw [BitVec.ofInt_natCast, BitVec.ofNat_toNat]
  | .bool, h, v =>
    show v.setWidth 64 = BitVec.ofInt 64 ((v.toNat : ℕ) : ℤ)
    rw [BitVec.ofInt_natCast, BitVec.ofNat_toNat]

theorem setWidth_ofInt {n m : ℕ} (h : n ≤ m) (z : ℤ) : (BitVec.ofInt m z).setWidth n = BitVec.ofInt n z := by
  apply BitVec.eq_of_toInt_eq
  rw [BitVec.toInt_setWidth, BitVec.toInt_ofInt, BitVec.toNat_ofInt]
  have hp : (0 : ℤ) < ((2 ^ m : ℕ) : ℤ) := by exact_mod_cast Nat.two_pow_pos m
  rw [Int.toNat_of_nonneg (Int.emod_nonneg _ hp.ne')]
  have hd : ((2 ^ n : ℕ) : ℤ) ∣ ((2 ^ m : ℕ) : ℤ) := by exact_mod_cast Nat.pow_dvd_pow 2 h
  rw [Int.bmod_eq_bmod_iff_bmod_sub_eq_zero]
  apply Int.bmod_eq_zero_of_dvd
  have h2 : ((2 ^ m : ℕ) : ℤ) ∣ z % ((2 ^ m : ℕ) : ℤ) - z := by
    have := Int.emod_add_mul_ediv z ((2 ^ m : ℕ) : ℤ)
    exact ⟨-(z / ((2 ^ m : ℕ) : ℤ)), by linarith⟩
  exact hd.trans h2

theorem ofInt_sub {n : ℕ} (x y : ℤ) : BitVec.ofInt n (x - y) = BitVec.ofInt n x - BitVec.ofInt n y := by
  rw [Int.sub_eq_add_neg, BitVec.ofInt_add, BitVec.ofInt_neg, BitVec.sub_eq_add_neg]

theorem sdiv_eq {n : ℕ} (a b : BitVec n) : a.sdiv b = BitVec.ofInt n (a.toInt.tdiv b.toInt) := by
  apply BitVec.eq_of_toInt_eq
  rw [BitVec.toInt_sdiv, BitVec.toInt_ofInt]

theorem ofInt_eq_iff {n : ℕ} {x y : ℤ} : BitVec.ofInt n x = BitVec.ofInt n y ↔ x.bmod (2 ^ n) = y.bmod (2 ^ n) := by
  rw [← BitVec.toInt_inj, BitVec.toInt_ofInt, BitVec.toInt_ofInt]

theorem eq_ofInt {n : ℕ} {a : BitVec n} {z : ℤ} (h : a.toInt = z) : a = BitVec.ofInt n z := by
  rw [← h, BitVec.ofInt_toInt]

theorem eq_ofInt_nat {n : ℕ} {a : BitVec n} {z : ℕ} (h : a.toNat = z) : a = BitVec.ofInt n z := by
  rw [BitVec.ofInt_natCast, ← h, BitVec.ofNat_toNat, BitVec.setWidth_eq]

/-- The number a wide number stands for. -/
theorem toInt_widen {n : ℕ} (h : n ≤ 64) (v : BitVec n) : (v.signExtend 64).toInt = v.toInt :=
  BitVec.toInt_signExtend_of_le h

theorem toNat_widen {n : ℕ} (h : n ≤ 64) (v : BitVec n) : (v.setWidth 64).toNat = v.toNat := by
  rw [BitVec.toNat_setWidth]
  apply Nat.mod_eq_of_lt
  exact lt_of_lt_of_le v.isLt (Nat.pow_le_pow_right (by norm_num) h)

theorem narrow_ofInt {s : Bool} {n : ℕ} (h : n ≤ 64) (z : ℤ) :
    narrow (.int s n) (BitVec.ofInt 64 z) = BitVec.ofInt n z := setWidth_ofInt h z

theorem narrow_widen {t : IT} (h : t.Ok) (v : BitVec t.bits) : narrow t (widen t v) = v := by
  match t, h, v with
  | .int s n, h, v =>
    rw [widen_eq _ h, narrow_ofInt h.2]
    exact ofInt_val (.int s n) v
  | .bool, h, v =>
    revert v
    show ∀ v : BitVec 1, (if v.setWidth 64 = 0 then (0 : BitVec 1) else 1) = v
    decide +kernel

/-- A wide number of 64 bits is what it stands for. -/
theorem widen_narrow64 {t : IT} (h : t.bits = 64) (w : BitVec 64) : widen t (narrow t w) = w := by
  match t, h with
  | .int true n, h =>
    have h' : n = 64 := h
    subst h'
    show (w.setWidth 64).signExtend 64 = w
    rw [BitVec.signExtend_eq, BitVec.setWidth_eq]
  | .int false n, h =>
    have h' : n = 64 := h
    subst h'
    show (w.setWidth 64).setWidth 64 = w
    rw [BitVec.setWidth_eq, BitVec.setWidth_eq]
  | .bool, h => exact absurd h (by decide)

theorem slt_widen {n : ℕ} (h : n ≤ 64) (a b : BitVec n) : (a.signExtend 64).slt (b.signExtend 64) = a.slt b := by
  rw [Bool.eq_iff_iff, BitVec.slt_iff_toInt_lt, BitVec.slt_iff_toInt_lt, toInt_widen h, toInt_widen h]

theorem sle_widen {n : ℕ} (h : n ≤ 64) (a b : BitVec n) : (a.signExtend 64).sle (b.signExtend 64) = a.sle b := by
  rw [Bool.eq_iff_iff, BitVec.sle_iff_toInt_le, BitVec.sle_iff_toInt_le, toInt_widen h, toInt_widen h]

theorem ult_widen {n : ℕ} (h : n ≤ 64) (a b : BitVec n) : (a.setWidth 64).ult (b.setWidth 64) = a.ult b := by
  rw [BitVec.ult, BitVec.ult, toNat_widen h, toNat_widen h]

theorem ule_widen {n : ℕ} (h : n ≤ 64) (a b : BitVec n) : (a.setWidth 64).ule (b.setWidth 64) = a.ule b := by
  rw [BitVec.ule, BitVec.ule, toNat_widen h, toNat_widen h]

/-- The remainder that the compiler computes has the sign of the divisor. -/
theorem wideMod_eq (a b : BitVec 64) (hb : b ≠ 0) :
    (if a.srem b ≠ 0 ∧ (a.slt 0 ^^ b.slt 0) = true then a.srem b + b else a.srem b)
      = BitVec.ofInt 64 (a.toInt.fmod b.toInt) := by
  have hb' : b.toInt ≠ 0 := fun h => hb (BitVec.eq_of_toInt_eq (by rw [h]; rfl))
  have hz : (0 : BitVec 64).toInt = 0 := by decide
  have h0 : a.srem b = BitVec.ofInt 64 (a.toInt.tmod b.toInt) := eq_ofInt (BitVec.toInt_srem a b)
  have hs0 : a.srem b = 0 ↔ a.toInt.tmod b.toInt = 0 := by
    rw [← BitVec.toInt_srem]
    constructor
    · intro h; rw [h]; rfl
    · intro h; exact BitVec.eq_of_toInt_eq (by rw [h]; rfl)
  have hA : a.slt 0 = decide (a.toInt < 0) := by
    rw [Bool.eq_iff_iff, BitVec.slt_iff_toInt_lt, hz, decide_eq_true_iff]
  have hB : b.slt 0 = decide (b.toInt < 0) := by
    rw [Bool.eq_iff_iff, BitVec.slt_iff_toInt_lt, hz, decide_eq_true_iff]
  have hx : b = BitVec.ofInt 64 b.toInt := BitVec.ofInt_toInt.symm
  rw [hA, hB, Int.fmod_eq_tmod]
  by_cases hd : b.toInt ∣ a.toInt
  · have : a.toInt.tmod b.toInt = 0 := Int.tmod_eq_zero_of_dvd hd
    rw [if_neg (fun h => h.1 (hs0.2 this)), if_pos hd, h0, Int.add_zero]
  · have hne : a.srem b ≠ 0 := fun h => hd (Int.dvd_of_tmod_eq_zero (hs0.1 h))
    rw [if_neg hd]
    by_cases ha : 0 ≤ a.toInt
    · by_cases hb0 : 0 ≤ b.toInt
      · rw [if_pos ha, if_pos hb0, if_neg, h0, Int.add_zero]
        rintro ⟨_, h⟩
        rw [decide_eq_false (by omega), decide_eq_false (by omega)] at h
        exact absurd h (by decide)
      · rw [if_pos ha, if_neg hb0, if_pos, BitVec.ofInt_add, ← h0, ← hx]
        refine ⟨hne, ?_⟩
        rw [decide_eq_false (by omega), decide_eq_true (by omega)]
        rfl
    · by_cases hb0 : 0 ≤ b.toInt
      · rw [if_neg ha, if_pos hb0, if_pos, BitVec.ofInt_add, ← h0]
        · have : ((b.toInt.natAbs : ℕ) : ℤ) = b.toInt := Int.natAbs_of_nonneg hb0
          rw [this, ← hx]
        · refine ⟨hne, ?_⟩
          rw [decide_eq_true (by omega), decide_eq_false (by omega)]
          rfl
      · rw [if_neg ha, if_neg hb0, if_neg, h0]
        · have : b.toInt.toNat = 0 := by omega
          rw [this]
          simp
        · rintro ⟨_, h⟩
          rw [decide_eq_true (by omega), decide_eq_true (by omega)] at h
          exact absurd h (by decide)

theorem smod_eq {n : ℕ} (a b : BitVec n) : a.smod b = BitVec.ofInt n (a.toInt.fmod b.toInt) :=
  eq_ofInt BitVec.toInt_smod

theorem srem_eq {n : ℕ} (a b : BitVec n) : a.srem b = BitVec.ofInt n (a.toInt.tmod b.toInt) :=
  eq_ofInt (BitVec.toInt_srem a b)

/-- Wide result and element come from the same integer, which is the element's number if nothing wraps. -/
def FromInt (t : IT) (w : BitVec 64) (v : BitVec t.bits) (exact : Prop) : Prop :=
  ∃ z : ℤ, w = BitVec.ofInt 64 z ∧ v = BitVec.ofInt t.bits z ∧ (exact → val t v = z)

theorem FromInt.widen {t : IT} (h : t.Ok) (v : BitVec t.bits) (p : Prop) : FromInt t (widen t v) v p :=
  ⟨val t v, widen_eq t h v, (ofInt_val t v).symm, fun _ => rfl⟩

theorem FromInt.narrow {s : Bool} {n : ℕ} (h : n ≤ 64) {w : BitVec 64} {v : BitVec n} {p : Prop}
    (hf : FromInt (.int s n) w v p) : narrow (.int s n) w = v := by
  obtain ⟨z, h1, h2, _⟩ := hf
  rw [h1, h2]
  exact narrow_ofInt h z

theorem FromInt.wide {t : IT} (h : t.Ok) {w : BitVec 64} {v : BitVec t.bits} {p : Prop}
    (hf : FromInt t w v p) (hp : p) : w = ConstProp.widen t v := by
  obtain ⟨z, h1, h2, h3⟩ := hf
  rw [widen_eq t h, h3 hp, h1]

theorem bin_signed {n : ℕ} (h : IT.Ok (.int true n)) (o : IBin) (a b v : BitVec n) (w : BitVec 64)
    (hn : needBin (.int true n) o a b) (hs : specBin (.int true n) o a b = some v)
    (hw : wideSigned o (a.signExtend 64) (b.signExtend 64) = some w) :
    FromInt (.int true n) w v (exactBin (.int true n) o a b v) := by
  have ea : a.signExtend 64 = BitVec.ofInt 64 a.toInt := widen_eq (.int true n) h a
  have eb : b.signExtend 64 = BitVec.ofInt 64 b.toInt := widen_eq (.int true n) h b
  have hz : b ≠ 0 → b.signExtend 64 ≠ 0 := by
    intro h1 h2
    apply h1
    apply BitVec.eq_of_toInt_eq
    rw [← toInt_widen h.2 b, h2]
    simp
  match o with
  | .add =>
    simp only [specBin, wideSigned, Option.some.injEq, ite_eq_right_iff, Option.ite_none_left_eq_some] at hs hw
    refine ⟨a.toInt + b.toInt, ?_, ?_, fun hp => hp⟩
    · rw [← hw.2, ea, eb, BitVec.ofInt_add]
    · rw [← hs]; exact eq_of_heq (by rw [BitVec.ofInt_add, BitVec.ofInt_toInt, BitVec.ofInt_toInt])
  | .sub =>
    simp only [specBin, wideSigned, Option.some.injEq, Option.ite_none_left_eq_some] at hs hw
    refine ⟨a.toInt - b.toInt, ?_, ?_, fun hp => hp⟩
    · rw [← hw.2, ea, eb, ofInt_sub]
    · rw [← hs, ofInt_sub, BitVec.ofInt_toInt, BitVec.ofInt_toInt]
  | .mul =>
    simp only [specBin, wideSigned, Option.some.injEq, Option.ite_none_left_eq_some] at hs hw
    refine ⟨a.toInt * b.toInt, ?_, ?_, fun hp => hp⟩
    · rw [← hw.2, ea, eb, BitVec.ofInt_mul]
    · rw [← hs, BitVec.ofInt_mul, BitVec.ofInt_toInt, BitVec.ofInt_toInt]
  | .div =>
    simp only [specBin, wideSigned, Option.some.injEq, Option.ite_none_left_eq_some] at hs hw
    rw [if_neg (hz hs.1)] at hw
    simp only [Option.some.injEq, Option.ite_none_left_eq_some] at hw
    refine ⟨a.toInt.tdiv b.toInt, ?_, ?_, fun hp => hp⟩
    · rw [← hw.2, sdiv_eq, toInt_widen h.2, toInt_widen h.2]
    · rw [← hs.2, sdiv_eq]
  | .mod =>
    simp only [specBin, wideSigned, Option.some.injEq, Option.ite_none_left_eq_some] at hs hw
    have e := wideMod_eq (a.signExtend 64) _ (hz hs.1)
    refine ⟨a.toInt.fmod b.toInt, ?_, ?_, fun _ => ?_⟩
    · rw [toInt_widen h.2, toInt_widen h.2] at e
      rw [← e]
      have := hw.2.2
      split at this
      · next hc => rw [if_pos hc]; exact (Option.some.inj this).symm
      · next hc => rw [if_neg hc]; exact (Option.some.inj this).symm
    · rw [← hs.2, smod_eq]
    · rw [← hs.2]; exact BitVec.toInt_smod
  | .fmod =>
    simp only [specBin, wideSigned, Option.some.injEq, Option.ite_none_left_eq_some] at hs hw
    have e := wideMod_eq (a.signExtend 64) _ (hz hs.1)
    have hfm : a.toInt.fmod b.toInt = a.toInt.tmod b.toInt := hn rfl
    refine ⟨a.toInt.fmod b.toInt, ?_, ?_, fun _ => ?_⟩
    · rw [toInt_widen h.2, toInt_widen h.2] at e
      rw [← e]
      have := hw.2.2
      split at this
      · next hc => rw [if_pos hc]; exact (Option.some.inj this).symm
      · next hc => rw [if_neg hc]; exact (Option.some.inj this).symm
    · rw [← hs.2, srem_eq, hfm]
    · rw [← hs.2, hfm]; exact BitVec.toInt_srem a b
  | .min =>
    simp only [specBin, wideSigned, Option.some.injEq] at hs hw
    have hv : w = widen (.int true n) v := by
      rw [slt_widen h.2] at hw
      rw [← hw, ← hs]
      by_cases h1 : a.slt b = true
      · rw [if_pos h1, if_neg]
        · rfl
        · rw [BitVec.slt_iff_toInt_lt] at h1 ⊢; omega
      · rw [if_neg h1]
        by_cases h2 : b.slt a = true
        · rw [if_pos h2]; rfl
        · rw [if_neg h2]
          have : a = b := by
            apply BitVec.eq_of_toInt_eq
            rw [BitVec.slt_iff_toInt_lt] at h1 h2
            omega
          rw [this]; rfl
    rw [hv]
    exact FromInt.widen h v _
  | .max =>
    simp only [specBin, wideSigned, Option.some.injEq] at hs hw
    have hv : w = widen (.int true n) v := by
      rw [slt_widen h.2] at hw
      rw [← hw, ← hs]
      by_cases h1 : a.slt b = true
      · rw [if_pos h1, if_pos h1]; rfl
      · rw [if_neg h1, if_neg h1]; rfl
    rw [hv]
    exact FromInt.widen h v _
  | .band =>
    simp only [specBin, wideSigned, Option.some.injEq] at hs hw
    have hv : w = widen (.int true n) v := by
      rw [← hw, ← hs]; exact BitVec.signExtend_and.symm
    rw [hv]
    exact FromInt.widen h v _
  | .bor =>
    simp only [specBin, wideSigned, Option.some.injEq] at hs hw
    have hv : w = widen (.int true n) v := by
      rw [← hw, ← hs]; exact BitVec.signExtend_or.symm
    rw [hv]
    exact FromInt.widen h v _
  | .land => exact absurd hw (by simp [wideSigned])
  | .lor => exact absurd hw (by simp [wideSigned])
  | .lxor => exact absurd hw (by simp [wideSigned])

theorem bin_unsigned {n : ℕ} (h : IT.Ok (.int false n)) (o : IBin) (a b v : BitVec n) (w : BitVec 64)
    (hs : specBin (.int false n) o a b = some v)
    (hw : wideUnsigned o (a.setWidth 64) (b.setWidth 64) = some w) :
    FromInt (.int false n) w v (exactBin (.int false n) o a b v) := by
  have ea : a.setWidth 64 = BitVec.ofInt 64 a.toNat := widen_eq (.int false n) h a
  have eb : b.setWidth 64 = BitVec.ofInt 64 b.toNat := widen_eq (.int false n) h b
  have fa : BitVec.ofInt n a.toNat = a := ofInt_val (.int false n) a
  have fb : BitVec.ofInt n b.toNat = b := ofInt_val (.int false n) b
  have hz : b ≠ 0 → b.setWidth 64 ≠ 0 := by
    intro h1 h2
    apply h1
    apply BitVec.eq_of_toNat_eq
    rw [← toNat_widen h.2 b, h2]
    simp
  match o with
  | .add =>
    simp only [specBin, wideUnsigned, Option.some.injEq] at hs hw
    refine ⟨a.toNat + b.toNat, ?_, ?_, fun hp => hp⟩
    · rw [← hw, ea, eb, BitVec.ofInt_add]
    · rw [← hs, BitVec.ofInt_add, fa, fb]
  | .sub =>
    simp only [specBin, wideUnsigned, Option.some.injEq] at hs hw
    refine ⟨a.toNat - b.toNat, ?_, ?_, fun hp => hp⟩
    · rw [← hw, ea, eb, ofInt_sub]
    · rw [← hs, ofInt_sub, fa, fb]
  | .mul =>
    simp only [specBin, wideUnsigned, Option.some.injEq] at hs hw
    refine ⟨a.toNat * b.toNat, ?_, ?_, fun hp => hp⟩
    · rw [← hw, ea, eb, BitVec.ofInt_mul]
    · rw [← hs, BitVec.ofInt_mul, fa, fb]
  | .div =>
    simp only [specBin, wideUnsigned, Option.some.injEq, Option.ite_none_left_eq_some] at hs hw
    rw [if_neg (hz hs.1)] at hw
    have hd : v.toNat = a.toNat / b.toNat := by rw [← hs.2]; exact BitVec.toNat_udiv
    refine ⟨((a.toNat / b.toNat : ℕ) : ℤ), ?_, ?_, fun _ => ?_⟩
    · rw [← Option.some.inj hw]
      apply eq_ofInt_nat
      rw [← toNat_widen h.2 a, ← toNat_widen h.2 b]
      exact BitVec.toNat_udiv
    · exact eq_ofInt_nat hd
    · show ((v.toNat : ℕ) : ℤ) = _
      rw [hd]
  | .mod => exact absurd hw (by simp [wideUnsigned])
  | .fmod => exact absurd hw (by simp [wideUnsigned])
  | .min =>
    simp only [specBin, wideUnsigned, Option.some.injEq] at hs hw
    have hv : w = widen (.int false n) v := by
      rw [ult_widen h.2] at hw
      rw [← hw, ← hs]
      by_cases h1 : a.ult b = true
      · rw [if_pos h1, if_neg]
        · rfl
        · rw [BitVec.ult_iff_lt, BitVec.lt_def] at h1 ⊢; omega
      · rw [if_neg h1]
        by_cases h2 : b.ult a = true
        · rw [if_pos h2]; rfl
        · rw [if_neg h2]
          have : a = b := by
            apply BitVec.eq_of_toNat_eq
            rw [BitVec.ult_iff_lt, BitVec.lt_def] at h1 h2
            omega
          rw [this]; rfl
    rw [hv]
    exact FromInt.widen h v _
  | .max =>
    simp only [specBin, wideUnsigned, Option.some.injEq] at hs hw
    have hv : w = widen (.int false n) v := by
      rw [ult_widen h.2] at hw
      rw [← hw, ← hs]
      by_cases h1 : a.ult b = true
      · rw [if_pos h1, if_pos h1]; rfl
      · rw [if_neg h1, if_neg h1]; rfl
    rw [hv]
    exact FromInt.widen h v _
  | .band =>
    simp only [specBin, wideUnsigned, Option.some.injEq] at hs hw
    have hv : w = widen (.int false n) v := by
      rw [← hw, ← hs]; exact BitVec.setWidth_and.symm
    rw [hv]
    exact FromInt.widen h v _
  | .bor =>
    simp only [specBin, wideUnsigned, Option.some.injEq] at hs hw
    have hv : w = widen (.int false n) v := by
      rw [← hw, ← hs]; exact BitVec.setWidth_or.symm
    rw [hv]
    exact FromInt.widen h v _
  | .land => exact absurd hw (by simp [wideUnsigned])
  | .lor => exact absurd hw (by simp [wideUnsigned])
  | .lxor => exact absurd hw (by simp [wideUnsigned])

theorem setWidth_sub {n m : ℕ} (h : n ≤ m) (a b : BitVec m) :
    (a - b).setWidth n = a.setWidth n - b.setWidth n := by
  rw [BitVec.sub_eq_add_neg, BitVec.setWidth_add _ _ h, BitVec.setWidth_neg_of_le h, BitVec.sub_eq_add_neg]

/-- Low bits depend on low bits. -/
theorem bin_ring {s : Bool} {n : ℕ} (h : n ≤ 64) (o : IBin) (ho : o.ring = true) (wa wb w : BitVec 64) (v : BitVec n)
    (hs : specBin (.int s n) o (wa.setWidth n) (wb.setWidth n) = some v)
    (hw : wideBin (.int s n) o wa wb = some w) : w.setWidth n = v := by
  cases s <;> cases o <;>
    simp only [IBin.ring, Bool.false_eq_true, specBin, wideBin, wideSigned, wideUnsigned, Option.some.injEq,
      Option.ite_none_left_eq_some] at ho hs hw
  · rw [← hw, ← hs, BitVec.setWidth_add _ _ h]
  · rw [← hw, ← hs, setWidth_sub h]
  · rw [← hw, ← hs, BitVec.setWidth_mul _ _ h]
  · rw [← hw, ← hs, BitVec.setWidth_and]
  · rw [← hw, ← hs, BitVec.setWidth_or]
  · rw [← hw.2, ← hs, BitVec.setWidth_add _ _ h]
  · rw [← hw.2, ← hs, setWidth_sub h]
  · rw [← hw.2, ← hs, BitVec.setWidth_mul _ _ h]
  · rw [← hw, ← hs, BitVec.setWidth_and]
  · rw [← hw, ← hs, BitVec.setWidth_or]

/-- Low bits depend on low bits. -/
theorem un_ring {s : Bool} {n : ℕ} (h : n ≤ 64) (o : IUn) (ho : o.ring = true) (wa w : BitVec 64) (v : BitVec n)
    (hs : specUn (.int s n) o (wa.setWidth n) = some v)
    (hw : wideUn (.int s n) o wa = some w) : w.setWidth n = v := by
  cases s <;> cases o <;>
    simp only [IUn.ring, Bool.false_eq_true, specUn, wideUn, Option.some.injEq,
      Option.ite_none_left_eq_some] at ho hs hw
  · rw [← hw, ← hs, BitVec.setWidth_neg_of_le h]
  · rw [← hw, ← hs, BitVec.setWidth_not h]
  · rw [← hw.2, ← hs, BitVec.setWidth_neg_of_le h]
  · rw [← hw, ← hs, BitVec.setWidth_not h]

theorem toDouble_eq {m : ℕ} (h : m ≤ 2 ^ 53) : toDouble m = m := by
  rcases Nat.lt_or_eq_of_le h with h | h
  · exact if_pos h
  · rw [h]
    decide +kernel

theorem toInt_not {n : ℕ} (a : BitVec n) : BitVec.ofInt n (-1 - a.toInt) = ~~~ a := by
  rw [ofInt_sub, BitVec.ofInt_toInt, BitVec.not_eq_neg_add, ofInt_neg_one]
  rw [BitVec.sub_eq_add_neg, BitVec.sub_eq_add_neg, BitVec.add_comm]
where
  ofInt_neg_one {n : ℕ} : BitVec.ofInt n (-1) = -1#n := by
    rw [BitVec.ofInt_neg]
    rfl

theorem ofInt_not (t : IT) (a : BitVec t.bits) : BitVec.ofInt t.bits (-1 - val t a) = ~~~ a := by
  rw [ofInt_sub, ofInt_val, BitVec.not_eq_neg_add, toInt_not.ofInt_neg_one]
  rw [BitVec.sub_eq_add_neg, BitVec.sub_eq_add_neg, BitVec.add_comm]

theorem un_exact {s : Bool} {n : ℕ} (h : IT.Ok (.int s n)) (o : IUn) (a v : BitVec n) (w : BitVec 64)
    (hn : needUn (.int s n) o a) (hs : specUn (.int s n) o a = some v)
    (hw : wideUn (.int s n) o (widen (.int s n) a) = some w) :
    FromInt (.int s n) w v (exactUn (.int s n) o a v) := by
  match o with
  | .neg =>
    have hs' : v = -a := by cases s <;> exact (Option.some.inj hs).symm
    have hw' : w = -(widen (.int s n) a) := by
      cases s
      · exact (Option.some.inj hw).symm
      · simp only [wideUn, Option.some.injEq, Option.ite_none_left_eq_some] at hw
        exact hw.2.symm
    refine ⟨- val (.int s n) a, ?_, ?_, fun hp => hp⟩
    · rw [hw', widen_eq _ h, BitVec.ofInt_neg]
    · rw [hs', BitVec.ofInt_neg, ofInt_val (.int s n) a]
  | .bnot =>
    have hs' : v = ~~~ a := by cases s <;> exact (Option.some.inj hs).symm
    have hw' : w = ~~~ (widen (.int s n) a) := by cases s <;> exact (Option.some.inj hw).symm
    refine ⟨-1 - val (.int s n) a, ?_, ?_, fun hp => hp⟩
    · rw [hw', widen_eq _ h, BitVec.not_eq_neg_add, ofInt_sub, toInt_not.ofInt_neg_one]
      rw [BitVec.sub_eq_add_neg, BitVec.sub_eq_add_neg, BitVec.add_comm]
    · rw [hs']
      exact (ofInt_not (.int s n) a).symm
  | .abs =>
    have hb := hn rfl
    cases s
    · have hs' : v = a := (Option.some.inj hs).symm
      have hb' : a.toNat ≤ 2 ^ 53 := by
        have : |((a.toNat : ℕ) : ℤ)| ≤ 2 ^ 53 := hb
        rw [abs_of_nonneg (by positivity)] at this
        exact_mod_cast this
      have e : wideUn (.int false n) .abs (widen (.int false n) a)
        = if toDouble (a.setWidth 64).toNat < 2 ^ 64 then some (BitVec.ofNat 64 (toDouble (a.setWidth 64).toNat)) else none := rfl
      rw [e, toNat_widen h.2, toDouble_eq hb', Option.ite_none_right_eq_some] at hw
      refine ⟨(a.toNat : ℤ), ?_, ?_, fun _ => ?_⟩
      · rw [← Option.some.inj hw.2, BitVec.ofInt_natCast]
      · rw [hs']; exact (ofInt_val (.int false n) a).symm
      · rw [hs']; rfl
    · have hs' : v = a.abs := (Option.some.inj hs).symm
      have hb' : a.toInt.natAbs ≤ 2 ^ 53 := by
        have : |a.toInt| ≤ 2 ^ 53 := hb
        rw [Int.abs_eq_natAbs] at this
        exact_mod_cast this
      have e : wideUn (.int true n) .abs (widen (.int true n) a)
        = if toDouble (a.signExtend 64).toInt.natAbs < 2 ^ 63 then
            some (BitVec.ofNat 64 (toDouble (a.signExtend 64).toInt.natAbs)) else none := rfl
      rw [e, toInt_widen h.2, toDouble_eq hb', Option.ite_none_right_eq_some] at hw
      refine ⟨|a.toInt|, ?_, ?_, fun hp => hp⟩
      · rw [← Option.some.inj hw.2, Int.abs_eq_natAbs, BitVec.ofInt_natCast]
      · rw [hs', BitVec.abs_eq]
        by_cases hm : a.msb = true
        · rw [if_pos hm]
          have : a.toInt < 0 := by rw [BitVec.msb_eq_toInt, decide_eq_true_iff] at hm; exact hm
          rw [abs_of_neg this, BitVec.ofInt_neg, BitVec.ofInt_toInt]
        · rw [if_neg hm]
          have : ¬ a.toInt < 0 := by rw [BitVec.msb_eq_toInt, decide_eq_true_iff] at hm; exact hm
          rw [abs_of_nonneg (by omega), BitVec.ofInt_toInt]
  | .relu =>
    cases s
    · have hs' : v = a := (Option.some.inj hs).symm
      have hw' : w = widen (.int false n) a := (Option.some.inj hw).symm
      rw [hw', hs']
      exact FromInt.widen h a _
    · have hs' : v = if a.slt 0 then 0 else a := (Option.some.inj hs).symm
      have hw' : w = if (a.signExtend 64).slt 0 then 0 else a.signExtend 64 := (Option.some.inj hw).symm
      have e0 : (0 : BitVec n).signExtend 64 = 0 := by
        apply BitVec.eq_of_toInt_eq
        rw [toInt_widen h.2]
        simp
      have hv : w = widen (.int true n) v := by
        rw [← e0, slt_widen h.2] at hw'
        rw [hw', hs']
        by_cases hc : a.slt 0 = true
        · rw [if_pos hc, if_pos hc]; rfl
        · rw [if_neg hc, if_neg hc]; rfl
      rw [hv]
      exact FromInt.widen h v _
  | .lnot => exact absurd hw (by cases s <;> simp [wideUn])

/-- Operators on truth values. -/
theorem bin_bool (o : IBin) (a b v : BitVec 1) (w : BitVec 64) (hs : specBin .bool o a b = some v)
    (hw : wideBin .bool o (widen .bool a) (widen .bool b) = some w) : w = widen .bool v := by
  have hx : ∀ a : BitVec 1, truth (widen .bool a) = (a != 0) := by decide +kernel
  have e : wideBin .bool o (widen .bool a) (widen .bool b)
    = (wideBool o (truth (widen .bool a)) (truth (widen .bool b))).map packBool := rfl
  rw [e, hx, hx] at hw
  have key : ∀ a b : BitVec 1, (specBin .bool o a b).map (widen .bool) = (wideBool o (a != 0) (b != 0)).map packBool := by
    cases o <;> decide +kernel
  have k := key a b
  rw [hs, hw] at k
  exact (Option.some.inj k).symm

theorem un_bool (o : IUn) (a v : BitVec 1) (w : BitVec 64) (hs : specUn .bool o a = some v)
    (hw : wideUn .bool o (widen .bool a) = some w) : w = widen .bool v := by
  have key : ∀ a : BitVec 1, (specUn .bool o a).map (widen .bool) = wideUn .bool o (widen .bool a) := by
    cases o <;> decide +kernel
  have k := key a
  rw [hs, hw] at k
  exact (Option.some.inj k).symm

theorem widen_inj {t : IT} (h : t.Ok) {a b : BitVec t.bits} : widen t a = widen t b ↔ a = b := by
  constructor
  · intro e
    rw [← narrow_widen h a, e, narrow_widen h]
  · intro e; rw [e]

theorem pack_ofBool (c : Bool) : packBool c = widen .bool (BitVec.ofBool c) := by
  cases c <;> decide +kernel

/-- Comparisons of numbers that are what they stand for. -/
theorem cmp_exact {t : IT} (h : t.Ok) (o : ICmp) (a b : BitVec t.bits) :
    wideCmp t o (widen t a) (widen t b) = specCmp t o a b := by
  match t, h with
  | .bool, _ =>
    revert a b
    cases o <;> decide +kernel
  | .int true n, h =>
    cases o
    · show some (widen (.int true n) a == widen (.int true n) b) = some (a == b)
      rw [Option.some.injEq, Bool.eq_iff_iff, beq_iff_eq, beq_iff_eq]
      exact widen_inj h
    · exact congrArg some (slt_widen h.2 a b)
    · exact congrArg some (slt_widen h.2 b a)
    · exact congrArg some (sle_widen h.2 a b)
    · exact congrArg some (sle_widen h.2 b a)
  | .int false n, h =>
    cases o
    · show some (widen (.int false n) a == widen (.int false n) b) = some (a == b)
      rw [Option.some.injEq, Bool.eq_iff_iff, beq_iff_eq, beq_iff_eq]
      exact widen_inj h
    · exact congrArg some (ult_widen h.2 a b)
    · exact congrArg some (ult_widen h.2 b a)
    · exact congrArg some (ule_widen h.2 a b)
    · exact congrArg some (ule_widen h.2 b a)

/-- A narrower type keeps the low bits. -/
theorem cast_narrow {t : IT} {s : Bool} {n : ℕ} (ht : t ≠ .bool) (hn : n ≤ t.bits) (w : BitVec 64) :
    specCast t (.int s n) (narrow t w) = narrow (.int s n) w := by
  match t, ht, hn with
  | .int true m, _, hn =>
    show (w.setWidth m).signExtend n = w.setWidth n
    rw [BitVec.signExtend_eq_setWidth_of_le _ hn, BitVec.setWidth_setWidth_of_le _ hn]
  | .int false m, _, hn =>
    show (w.setWidth m).setWidth n = w.setWidth n
    rw [BitVec.setWidth_setWidth_of_le _ hn]

/-- An element cast to an integer type is the element of its number. -/
theorem cast_val {t : IT} {s : Bool} {n : ℕ} (a : BitVec t.bits) :
    specCast t (.int s n) a = BitVec.ofInt n (val t a) := by
  match t, a with
  | .int true m, a =>
    show a.signExtend n = BitVec.ofInt n a.toInt
    apply BitVec.eq_of_toInt_eq
    rw [BitVec.toInt_ofInt, BitVec.toInt_signExtend]
    by_cases h : n ≤ m
    · rw [Nat.min_eq_left h]
    · rw [Nat.min_eq_right (show m ≤ n by omega), BitVec.toInt_bmod_cancel]
      have := BitVec.toInt_signExtend_of_le (x := a) (v := n) (show m ≤ n by omega)
      rw [← this, BitVec.toInt_bmod_cancel]
  | .int false m, a =>
    show a.setWidth n = BitVec.ofInt n ((a.toNat : ℕ) : ℤ)
    rw [BitVec.ofInt_natCast, BitVec.ofNat_toNat]
  | .bool, a =>
    show a.setWidth n = BitVec.ofInt n ((a.toNat : ℕ) : ℤ)
    rw [BitVec.ofInt_natCast, BitVec.ofNat_toNat]

/-- Casts do not touch the wide number, except those to `bool`. -/
theorem castWide_int {t : IT} {s : Bool} {n : ℕ} {x y : Wide} (h : castWide t (.int s n) x = some y) : y.num = x.num := by
  unfold castWide at h
  by_cases h1 : t = .int s n
  · rw [if_pos h1] at h
    rw [Option.some.inj h]
  · rw [if_neg h1] at h
    dsimp only at h
    by_cases h2 : isSigned t = s
    · rw [if_pos h2] at h
      rw [Option.ite_none_right_eq_some] at h
      rw [Option.some.inj h.2]
    · rw [if_neg h2] at h
      rw [← Option.some.inj h]

theorem castWide_bool {t : IT} {x y : Wide} (ht : t ≠ .bool) (h : castWide t .bool x = some y) :
    y.num = packBool (x.num ≠ 0) := by
  unfold castWide at h
  rw [if_neg ht] at h
  rw [← Option.some.inj h]

theorem result_num (s : Store) (x y : Wide) (t : IT) (w : BitVec 64) : (result s x y t w).num = w := by
  cases s <;> rfl

theorem whereWide_num (s : Store) (t : IT) (c x y : Wide) :
    (whereWide s t c x y).num = if c.num ≠ 0 then x.num else y.num := by
  cases s
  · rfl
  · rfl
  · show (if c.num ≠ 0 then x else y).num = _
    split <;> rfl

theorem ok_type : {t : IT} → (e : FE t) → e.Ok → t.Ok
  | _, .lit _, h => h
  | _, .bin _ _ x _, h => ok_type x h.1
  | _, .un _ x, h => ok_type x h
  | _, .cmp _ _ _ _, _ => trivial
  | _, .cast _ _, h => h.1
  | _, .sel _ _ x _, h => ok_type x h.2.1

/-- What holds of a folded element: its low bits are right, and without wrapping, and for truth values, all of it. -/
def Agrees (strict : Bool) (t : IT) (w : BitVec 64) (v : BitVec t.bits) : Prop :=
  narrow t w = v ∧ (strict = true ∨ t = .bool → w = widen t v)

theorem Agrees.of_wide {strict : Bool} {t : IT} (h : t.Ok) {w : BitVec 64} {v : BitVec t.bits} (e : w = widen t v) :
    Agrees strict t w v := ⟨by rw [e]; exact narrow_widen h v, fun _ => e⟩

theorem Agrees.mono {t : IT} {k k' : Bool} {w : BitVec 64} {v : BitVec t.bits} (hk : k = true → k' = true)
    (h : Agrees k' t w v) : Agrees k t w v :=
  ⟨h.1, fun hh => h.2 (hh.imp hk id)⟩

theorem Agrees.of_int {strict : Bool} {s : Bool} {n : ℕ} (h : IT.Ok (.int s n)) {w : BitVec 64} {v : BitVec n} {p : Prop}
    (hf : FromInt (.int s n) w v p) (hp : strict = true → n = 64 ∨ p) : Agrees strict (.int s n) w v := by
  have hn := hf.narrow h.2
  refine ⟨hn, fun hh => ?_⟩
  rcases hh with hh | hh
  · rcases hp hh with h64 | hp
    · rw [← hn]
      exact (widen_narrow64 (t := .int s n) h64 w).symm
    · exact hf.wide h hp
  · exact absurd hh (by simp)

theorem Agrees.of_narrow {s : Bool} {n : ℕ} {w : BitVec 64} {v : BitVec n} (hn : narrow (.int s n) w = v) :
    Agrees false (.int s n) w v :=
  ⟨hn, fun hh => hh.elim (fun h => absurd h (by simp)) (fun h => absurd h (by simp))⟩

theorem agrees_bin {strict : Bool} {t : IT} (h : t.Ok) (o : IBin) {wa wb w : BitVec 64} {a b v : BitVec t.bits}
    (ha : Agrees (strict || !o.ring) t wa a) (hb : Agrees (strict || !o.ring) t wb b)
    (hs : specBin t o a b = some v) (hw : wideBin t o wa wb = some w)
    (hc : needBin t o a b ∧ (strict = true → t.bits = 64 ∨ exactBin t o a b v)) : Agrees strict t w v := by
  match t, h with
  | .bool, h =>
    have ea := ha.2 (Or.inr rfl)
    have eb := hb.2 (Or.inr rfl)
    rw [ea, eb] at hw
    exact Agrees.of_wide h (bin_bool o a b v w hs hw)
  | .int s n, h =>
    by_cases hk : (strict || !o.ring) = true
    · have ea := ha.2 (Or.inl hk)
      have eb := hb.2 (Or.inl hk)
      rw [ea, eb] at hw
      refine Agrees.of_int h ?_ hc.2
      cases s
      · exact bin_unsigned h o a b v w hs hw
      · exact bin_signed h o a b v w hc.1 hs hw
    · rw [Bool.or_eq_true, not_or, Bool.not_eq_true, Bool.not_eq_true, Bool.not_eq_false'] at hk
      obtain ⟨k1, k2⟩ := hk
      subst k1
      apply Agrees.of_narrow
      have ea : wa.setWidth n = a := ha.1
      have eb : wb.setWidth n = b := hb.1
      rw [← ea, ← eb] at hs
      exact bin_ring h.2 o k2 wa wb w v hs hw

theorem agrees_un {strict : Bool} {t : IT} (h : t.Ok) (o : IUn) {wa w : BitVec 64} {a v : BitVec t.bits}
    (ha : Agrees (strict || !o.ring) t wa a)
    (hs : specUn t o a = some v) (hw : wideUn t o wa = some w)
    (hc : needUn t o a ∧ (strict = true → t.bits = 64 ∨ exactUn t o a v)) : Agrees strict t w v := by
  match t, h with
  | .bool, h =>
    have ea := ha.2 (Or.inr rfl)
    rw [ea] at hw
    exact Agrees.of_wide h (un_bool o a v w hs hw)
  | .int s n, h =>
    by_cases hk : (strict || !o.ring) = true
    · have ea := ha.2 (Or.inl hk)
      rw [ea] at hw
      exact Agrees.of_int h (un_exact h o a v w hc.1 hs hw) hc.2
    · rw [Bool.or_eq_true, not_or, Bool.not_eq_true, Bool.not_eq_true, Bool.not_eq_false'] at hk
      obtain ⟨k1, k2⟩ := hk
      subst k1
      apply Agrees.of_narrow
      have ea : wa.setWidth n = a := ha.1
      rw [← ea] at hs
      exact un_ring h.2 o k2 wa w v hs hw

theorem agrees_cast {strict : Bool} {t t' : IT} (h : t.Ok) (h' : t'.Ok) {x y : Wide} {a : BitVec t.bits}
    (ha : Agrees (strict || t' == .bool || decide (t.bits < t'.bits)) t x.num a) (hw : castWide t t' x = some y)
    (hc : strict = true → t' = .bool ∨ t'.bits = 64 ∨ val t' (specCast t t' a) = val t a) :
    Agrees strict t' y.num (specCast t t' a) := by
  match t', h' with
  | .bool, h' =>
    have ea := ha.2 (Or.inl (by simp))
    apply Agrees.of_wide h'
    by_cases hb : t = .bool
    · subst hb
      have : castWide .bool .bool x = some x := rfl
      rw [this] at hw
      rw [← Option.some.inj hw, ea]
      revert a
      intro a _ _ _
      clear * -
      revert a
      decide +kernel
    · rw [castWide_bool hb hw, ea]
      have e : specCast t .bool a = if a = 0 then 0 else 1 := by cases t <;> rfl
      rw [e]
      have ez : widen t 0 = 0 := by
        rw [widen_eq t h]
        have : val t 0 = 0 := by
          match t with
          | .int true n => exact BitVec.toInt_zero
          | .int false n => show (((0 : BitVec n).toNat : ℕ) : ℤ) = 0; simp
          | .bool => rfl
        rw [this]
        rfl
      by_cases h0 : a = 0
      · rw [if_pos h0, h0, ez]
        decide +kernel
      · rw [if_neg h0]
        have : widen t a ≠ 0 := fun hh => h0 ((widen_inj h).1 (hh.trans ez.symm))
        rw [decide_eq_true this]
        decide +kernel
  | .int s n, h' =>
    have en := castWide_int hw
    rw [en]
    by_cases hk : (strict || (IT.int s n == IT.bool) || decide (t.bits < n)) = true
    · have ea := ha.2 (Or.inl hk)
      refine Agrees.of_int (p := val (.int s n) (specCast t (.int s n) a) = val t a) h' ⟨val t a, ?_, cast_val a, fun hp => hp⟩ ?_
      · rw [ea, widen_eq t h]
      · intro hs
        rcases hc hs with h1 | h1 | h1
        · exact absurd h1 (by simp)
        · exact Or.inl h1
        · exact Or.inr h1
    · rw [Bool.or_eq_true, Bool.or_eq_true, not_or, not_or, Bool.not_eq_true, decide_eq_true_iff] at hk
      obtain ⟨⟨k1, _⟩, k3⟩ := hk
      subst k1
      apply Agrees.of_narrow
      have ea : narrow t x.num = a := ha.1
      have hb : t ≠ .bool := by
        rintro rfl
        have : 1 < n := h'.1
        exact k3 this
      rw [← ea]
      exact (cast_narrow hb (by omega) x.num).symm

/-- Folded elements agree with what the generated code computes. -/
theorem agrees {strict : Bool} : {t : IT} → (e : FE t) → e.Ok → e.Tame strict → ∀ {w : Wide} {v : BitVec t.bits},
    e.wide = some w → e.spec = some v → Agrees strict t w.num v := by
  intro t e
  induction e generalizing strict with
  | lit v =>
    intro h _ w v' hw hs
    rw [← Option.some.inj hw, ← Option.some.inj hs]
    exact Agrees.of_wide h rfl
  | @bin t o s x y ihx ihy =>
    intro h ht w v hw hs
    obtain ⟨a, hxa, hs⟩ := Option.bind_eq_some_iff.1 hs
    obtain ⟨b, hyb, hs⟩ := Option.bind_eq_some_iff.1 hs
    obtain ⟨wa, hxw, hw⟩ := Option.bind_eq_some_iff.1 hw
    obtain ⟨wb, hyw, hw⟩ := Option.bind_eq_some_iff.1 hw
    obtain ⟨wn, hw', rfl⟩ := Option.map_eq_some_iff.1 hw
    rw [result_num]
    exact agrees_bin (ok_type x h.1) o (ihx h.1 ht.1 hxw hxa) (ihy h.2 ht.2.1 hyw hyb) hs hw' (ht.2.2 a b v hxa hyb hs)
  | @un t o x ihx =>
    intro h ht w v hw hs
    obtain ⟨a, hxa, hs⟩ := Option.bind_eq_some_iff.1 hs
    obtain ⟨wa, hxw, hw⟩ := Option.bind_eq_some_iff.1 hw
    obtain ⟨wn, hw', rfl⟩ := Option.map_eq_some_iff.1 hw
    exact agrees_un (ok_type x h) o (ihx h ht.1 hxw hxa) hs hw' (ht.2 a v hxa hs)
  | @cmp t o s x y ihx ihy =>
    intro h ht w v hw hs
    obtain ⟨a, hxa, hs⟩ := Option.bind_eq_some_iff.1 hs
    obtain ⟨b, hyb, hs⟩ := Option.bind_eq_some_iff.1 hs
    obtain ⟨c, hs', rfl⟩ := Option.map_eq_some_iff.1 hs
    obtain ⟨wa, hxw, hw⟩ := Option.bind_eq_some_iff.1 hw
    obtain ⟨wb, hyw, hw⟩ := Option.bind_eq_some_iff.1 hw
    obtain ⟨c', hw', rfl⟩ := Option.map_eq_some_iff.1 hw
    rw [result_num]
    rw [(ihx h.1 ht.1 hxw hxa).2 (Or.inl rfl), (ihy h.2 ht.2 hyw hyb).2 (Or.inl rfl), cmp_exact (ok_type x h.1), hs'] at hw'
    rw [Option.some.inj hw']
    exact Agrees.of_wide (t := .bool) trivial (pack_ofBool c')
  | @cast t t' x ihx =>
    intro h ht w v hw hs
    obtain ⟨a, hxa, rfl⟩ := Option.map_eq_some_iff.1 hs
    obtain ⟨wa, hxw, hw⟩ := Option.bind_eq_some_iff.1 hw
    exact agrees_cast (ok_type x h.2) h.1 (ihx h.2 ht.1 hxw hxa) hw (ht.2 a hxa)
  | @sel t s c x y ihc ihx ihy =>
    intro h ht w v hw hs
    obtain ⟨k, hck, hs⟩ := Option.bind_eq_some_iff.1 hs
    obtain ⟨a, hxa, hs⟩ := Option.bind_eq_some_iff.1 hs
    obtain ⟨b, hyb, rfl⟩ := Option.map_eq_some_iff.1 hs
    obtain ⟨wk, hcw, hw⟩ := Option.bind_eq_some_iff.1 hw
    obtain ⟨wa, hxw, hw⟩ := Option.bind_eq_some_iff.1 hw
    obtain ⟨wb, hyw, rfl⟩ := Option.map_eq_some_iff.1 hw
    rw [whereWide_num]
    have ec := (ihc h.1 ht.1 hcw hck).2 (Or.inr rfl)
    have e0 : ∀ k : BitVec 1, widen .bool k = 0 ↔ k = 0 := by decide +kernel
    by_cases hk : k = 0
    · rw [if_pos hk, if_neg (fun hn => hn (by rw [ec, e0]; exact hk))]
      exact ihy h.2.2 ht.2.2 hyw hyb
    · rw [if_neg hk, if_pos (fun hn => hk (by rw [ec, e0] at hn; exact hn))]
      exact ihx h.2.1 ht.2.1 hxw hxa

theorem folded_eq {t : IT} (e : FE t) (h : e.Ok) (ht : e.Tame false) {v v' : BitVec t.bits}
    (hf : e.folded = some v) (hs : e.spec = some v') : v = v' := by
  obtain ⟨w, hw, rfl⟩ := Option.map_eq_some_iff.1 hf
  exact (agrees e h ht hw hs).1

end Verif.ConstProp
