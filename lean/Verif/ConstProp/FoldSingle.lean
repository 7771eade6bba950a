import Verif.ConstProp.FoldSound
import Mathlib.Algebra.Order.Ring.Abs

/-!
# Single operators on constants of at most 32 bits, and rings of operators
-/

namespace Verif.ConstProp

open Verif.Float

theorem toInt_bounds {n : ℕ} (hn : n ≤ 32) (a : BitVec n) : -2 ^ 31 ≤ a.toInt ∧ a.toInt < 2 ^ 31 := by
  have h1 := BitVec.le_toInt a
  have h2 := BitVec.toInt_lt (x := a)
  have h3 : (2 : ℤ) ^ (n - 1) ≤ 2 ^ 31 := by
    have : (2 : ℕ) ^ (n - 1) ≤ 2 ^ 31 := Nat.pow_le_pow_right (by norm_num) (by omega)
    exact_mod_cast this
  constructor <;> omega

theorem toNat_bound {n : ℕ} (hn : n ≤ 32) (a : BitVec n) : a.toNat < 2 ^ 32 :=
  lt_of_lt_of_le a.isLt (Nat.pow_le_pow_right (by norm_num) hn)

theorem no_quot {n : ℕ} (hn : n ≤ 32) (a : BitVec n) (b : BitVec 64) : quotOverflows (a.signExtend 64) b = false := by
  unfold quotOverflows
  rw [decide_eq_false_iff_not]
  rintro ⟨h, _⟩
  have h1 := toInt_widen (show n ≤ 64 by omega) a
  rw [h] at h1
  have h2 : (BitVec.intMin 64).toInt = -2 ^ 63 := by decide +kernel
  have := toInt_bounds hn a
  omega

/-- Operators of at most 32 bits never run into undefined behaviour. -/
theorem signed_total {n : ℕ} (hn : n ≤ 32) (o : IBin) (a b v : BitVec n) (hs : specBin (.int true n) o a b = some v) :
    ∃ w, wideSigned o (a.signExtend 64) (b.signExtend 64) = some w := by
  have ha := toInt_bounds hn a
  have hb := toInt_bounds hn b
  have ea := toInt_widen (show n ≤ 64 by omega) a
  have eb := toInt_widen (show n ≤ 64 by omega) b
  have hz : b ≠ 0 → b.signExtend 64 ≠ 0 := by
    intro h1 h2
    apply h1
    apply BitVec.eq_of_toInt_eq
    rw [← eb, h2]
    simp
  have hq := no_quot hn a (b.signExtend 64)
  cases o
  case add =>
    refine ⟨_, if_neg ?_⟩
    rw [BitVec.saddOverflow, ea, eb]
    simp only [Bool.or_eq_true, decide_eq_true_eq]
    omega
  case sub =>
    refine ⟨_, if_neg ?_⟩
    rw [BitVec.ssubOverflow, ea, eb]
    simp only [Bool.or_eq_true, decide_eq_true_eq]
    omega
  case mul =>
    refine ⟨_, if_neg ?_⟩
    rw [BitVec.smulOverflow, ea, eb]
    simp only [Bool.or_eq_true, decide_eq_true_eq]
    have h1 : |a.toInt * b.toInt| ≤ 2 ^ 31 * 2 ^ 31 := by
      rw [abs_mul]
      exact mul_le_mul (abs_le.2 ⟨ha.1, ha.2.le⟩) (abs_le.2 ⟨hb.1, hb.2.le⟩) (abs_nonneg _) (by norm_num)
    have h2 := abs_le.1 h1
    norm_num at h2 ⊢
    omega
  case div =>
    simp only [wideSigned, hq]
    split
    · exact ⟨_, rfl⟩
    · exact ⟨_, rfl⟩
  case mod =>
    simp only [specBin, Option.ite_none_left_eq_some] at hs
    simp only [wideSigned, hq, if_neg (hz hs.1)]
    rw [if_neg (by simp)]
    split <;> exact ⟨_, rfl⟩
  case fmod =>
    simp only [specBin, Option.ite_none_left_eq_some] at hs
    simp only [wideSigned, hq, if_neg (hz hs.1)]
    rw [if_neg (by simp)]
    split <;> exact ⟨_, rfl⟩
  case min => exact ⟨_, rfl⟩
  case max => exact ⟨_, rfl⟩
  case band => exact ⟨_, rfl⟩
  case bor => exact ⟨_, rfl⟩
  all_goals exact absurd hs (by simp [specBin])

theorem unsigned_total {n : ℕ} (o : IBin) (ho : o ≠ .mod ∧ o ≠ .fmod) (a b v : BitVec n) (wa wb : BitVec 64)
    (hs : specBin (.int false n) o a b = some v) : ∃ w, wideUnsigned o wa wb = some w := by
  cases o
  case div =>
    simp only [wideUnsigned]
    split <;> exact ⟨_, rfl⟩
  case mod => exact absurd rfl ho.1
  case fmod => exact absurd rfl ho.2
  all_goals first
    | exact ⟨_, rfl⟩
    | exact absurd hs (by simp [specBin])

theorem bool_total (o : IBin) (a b v : BitVec 1) (wa wb : BitVec 64)
    (hs : specBin .bool o a b = some v) : ∃ w, wideBin .bool o wa wb = some w := by
  cases o
  all_goals first
    | exact ⟨_, rfl⟩
    | exact absurd hs (by simp [specBin])

/-- One operator with two operands. -/
theorem bin_single {t : IT} (h : t.Ok) (hb : t.bits ≤ 32) (o : IBin) (s : Store) (a b v : BitVec t.bits)
    (hu : ∀ n, t = .int false n → o ≠ .mod ∧ o ≠ .fmod) (hn : needBin t o a b)
    (hs : specBin t o a b = some v) : (FE.bin o s (.lit a) (.lit b)).folded = some v := by
  have hw : ∃ w, wideBin t o (widen t a) (widen t b) = some w := by
    match t, hb with
    | .int true n, hb => exact signed_total hb o a b v hs
    | .int false n, hb => exact unsigned_total o (hu n rfl) a b v _ _ hs
    | .bool, hb => exact bool_total o a b v _ _ hs
  obtain ⟨w, hw⟩ := hw
  have e : (FE.bin o s (.lit a) (.lit b) : FE t).wide
      = some (result s ⟨widen t a, false, isUnsignedWide t⟩ ⟨widen t b, false, isUnsignedWide t⟩ t w) := by
    show (wideBin t o (widen t a) (widen t b)).map _ = _
    rw [hw]
    rfl
  have hf : (FE.bin o s (.lit a) (.lit b) : FE t).folded = some (narrow t w) := by
    unfold FE.folded
    rw [e, Option.map_some, result_num]
  have hsp : (FE.bin o s (.lit a) (.lit b) : FE t).spec = some v := hs
  have ht : (FE.bin o s (.lit a) (.lit b) : FE t).Tame false := by
    refine ⟨trivial, trivial, ?_⟩
    rintro a' b' v' ha hb' _
    rw [← Option.some.inj ha, ← Option.some.inj hb']
    exact ⟨hn, fun hh => absurd hh (by simp)⟩
  have hok : (FE.bin o s (.lit a) (.lit b) : FE t).Ok := ⟨h, h⟩
  rw [hf, folded_eq _ hok ht hf hsp]

/-- One operator with one operand. -/
theorem un_single {t : IT} (h : t.Ok) (hb : t.bits ≤ 32) (o : IUn) (a v : BitVec t.bits)
    (hs : specUn t o a = some v) : (FE.un o (.lit a)).folded = some v := by
  have hneed : needUn t o a := by
    intro _
    match t, hb, a with
    | .int true n, hb, a =>
      have := toInt_bounds hb a
      show |a.toInt| ≤ 2 ^ 53
      rw [abs_le]
      constructor <;> omega
    | .int false n, hb, a =>
      have := toNat_bound hb a
      show |((a.toNat : ℕ) : ℤ)| ≤ 2 ^ 53
      rw [abs_le]
      constructor <;> omega
    | .bool, hb, a =>
      have := toNat_bound (n := 1) (by norm_num) a
      show |((a.toNat : ℕ) : ℤ)| ≤ 2 ^ 53
      rw [abs_le]
      constructor <;> omega
  have hw : ∃ w, wideUn t o (widen t a) = some w := by
    match t, hb, a with
    | .int true n, hb, a =>
      have hbd := toInt_bounds hb a
      have ea := toInt_widen (show n ≤ 64 by have : n ≤ 32 := hb; omega) a
      cases o
      case neg =>
        refine ⟨_, if_neg ?_⟩
        intro hh
        have h2 : (BitVec.intMin 64).toInt = -2 ^ 63 := by decide +kernel
        have h3 : (a.signExtend 64).toInt = -2 ^ 63 := by
          rw [← h2]; exact congrArg BitVec.toInt hh
        omega
      case abs =>
        refine ⟨_, if_pos ?_⟩
        show toDouble (a.signExtend 64).toInt.natAbs < 2 ^ 63
        rw [ea, toDouble_eq (by omega)]
        omega
      case lnot => exact absurd hs (by simp [specUn])
      all_goals exact ⟨_, rfl⟩
    | .int false n, hb, a =>
      have hbd := toNat_bound hb a
      have ea := toNat_widen (show n ≤ 64 by have : n ≤ 32 := hb; omega) a
      cases o
      case abs =>
        refine ⟨_, if_pos ?_⟩
        show toDouble (a.setWidth 64).toNat < 2 ^ 64
        rw [ea, toDouble_eq (by omega)]
        omega
      case lnot => exact absurd hs (by simp [specUn])
      all_goals exact ⟨_, rfl⟩
    | .bool, hb, a =>
      cases o
      case lnot => exact ⟨_, rfl⟩
      all_goals exact absurd hs (by simp [specUn])
  obtain ⟨w, hw⟩ := hw
  have e : (FE.un o (.lit a) : FE t).wide = some ⟨w, true, isUnsignedWide t⟩ := by
    show (wideUn t o (widen t a)).map _ = _
    rw [hw]
    rfl
  have hf : (FE.un o (.lit a) : FE t).folded = some (narrow t w) := by
    unfold FE.folded
    rw [e, Option.map_some]
  have hsp : (FE.un o (.lit a) : FE t).spec = some v := hs
  have ht : (FE.un o (.lit a) : FE t).Tame false := by
    refine ⟨trivial, ?_⟩
    rintro a' v' ha _
    rw [← Option.some.inj ha]
    exact ⟨hneed, fun hh => absurd hh (by simp)⟩
  have hok : (FE.un o (.lit a) : FE t).Ok := h
  rw [hf, folded_eq _ hok ht hf hsp]

/-- One comparison, of any type. -/
theorem cmp_single {t : IT} (h : t.Ok) (o : ICmp) (s : Store) (a b : BitVec t.bits) (c : Bool)
    (hs : specCmp t o a b = some c) : (FE.cmp o s (.lit a) (.lit b)).folded = some (BitVec.ofBool c) := by
  have e : (FE.cmp o s (.lit a) (.lit b)).wide
      = some (result s ⟨widen t a, false, isUnsignedWide t⟩ ⟨widen t b, false, isUnsignedWide t⟩ .bool (packBool c)) := by
    show (wideCmp t o (widen t a) (widen t b)).map _ = _
    rw [cmp_exact h, hs]
    rfl
  unfold FE.folded
  rw [e, Option.map_some, result_num]
  cases c <;> decide +kernel

theorem ring_tame : {t : IT} → (e : FE t) → e.Ok → e.Ring → e.Tame false := by
  intro t e
  induction e with
  | lit v => intro _ _; trivial
  | @bin t o s x y ihx ihy =>
    intro h hr
    refine ⟨?_, ?_, ?_⟩
    · rw [hr.1]; exact ihx h.1 hr.2.2.1
    · rw [hr.1]; exact ihy h.2 hr.2.2.2
    · intro a b v _ _ _
      refine ⟨?_, fun hh => absurd hh (by simp)⟩
      intro ho
      rw [ho] at hr
      exact absurd hr.1 (by decide)
  | @un t o x ihx =>
    intro h hr
    refine ⟨?_, ?_⟩
    · rw [hr.1]; exact ihx h hr.2.2
    · intro a v _ _
      refine ⟨?_, fun hh => absurd hh (by simp)⟩
      intro ho
      rw [ho] at hr
      exact absurd hr.1 (by decide)
  | cmp o s x y ihx ihy => intro _ hr; exact hr.elim
  | @cast t t' x ihx =>
    intro h hr
    refine ⟨?_, fun a _ hh => absurd hh (by simp)⟩
    have e1 : (false || t' == IT.bool || decide (t.bits < t'.bits)) = false := by
      rw [Bool.false_or, Bool.or_eq_false_iff, beq_eq_false_iff_ne, decide_eq_false_iff_not]
      exact ⟨hr.1, by have := hr.2.1; omega⟩
    rw [e1]
    exact ihx h.2 hr.2.2
  | sel s c x y ihc ihx ihy =>
    intro h hr
    exact ⟨ihc h.1 hr.1, ihx h.2.1 hr.2.1, ihy h.2.2 hr.2.2⟩

theorem ring_spec : {t : IT} → (e : FE t) → e.Ring → ∃ v, e.spec = some v := by
  intro t e
  induction e with
  | lit v => intro _; exact ⟨v, rfl⟩
  | @bin t o s x y ihx ihy =>
    intro hr
    obtain ⟨a, ha⟩ := ihx hr.2.2.1
    obtain ⟨b, hb⟩ := ihy hr.2.2.2
    have e : (FE.bin o s x y).spec = specBin t o a b := by
      show (x.spec.bind _) = _
      rw [ha, Option.bind_some, hb, Option.bind_some]
    rw [e]
    have ho := hr.1
    match t, hr.2.1 with
    | .int sg n, _ =>
      cases o <;> simp only [IBin.ring, Bool.false_eq_true] at ho <;> cases sg <;> exact ⟨_, rfl⟩
    | .bool, hh => exact absurd rfl hh
  | @un t o x ihx =>
    intro hr
    obtain ⟨a, ha⟩ := ihx hr.2.2
    have e : (FE.un o x).spec = specUn t o a := by
      show (x.spec.bind _) = _
      rw [ha, Option.bind_some]
    rw [e]
    have ho := hr.1
    match t, hr.2.1 with
    | .int sg n, _ =>
      cases o <;> simp only [IUn.ring, Bool.false_eq_true] at ho <;> cases sg <;> exact ⟨_, rfl⟩
    | .bool, hh => exact absurd rfl hh
  | cmp o s x y ihx ihy => intro hr; exact hr.elim
  | @cast t t' x ihx =>
    intro hr
    obtain ⟨a, ha⟩ := ihx hr.2.2
    exact ⟨specCast t t' a, by show x.spec.map _ = _; rw [ha]; rfl⟩
  | sel s c x y ihc ihx ihy =>
    intro hr
    obtain ⟨k, hk⟩ := ihc hr.1
    obtain ⟨a, ha⟩ := ihx hr.2.1
    obtain ⟨b, hb⟩ := ihy hr.2.2
    exact ⟨if k = 0 then b else a, by
      show c.spec.bind _ = _
      rw [hk, Option.bind_some, ha, Option.bind_some, hb]
      rfl⟩

end Verif.ConstProp
