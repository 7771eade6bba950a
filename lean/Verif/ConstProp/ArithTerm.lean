import Verif.ConstProp.ArithSound

/-! # Rearranging arithmetic with constants ends -/

namespace Verif.ConstProp

open Verif.Rewrite

variable {V : Type} [Inhabited V] [DecidableEq V]

/-- The number of nodes. -/
def CE.size : CE V → ℕ
  | .val _ => 1
  | .cst _ _ => 1
  | .bin _ x y => x.size + y.size + 1
  | .mm x y => x.size + y.size + 1
  | .other _ x y => x.size + y.size + 1

/-- The number of subtractions. -/
def CE.subs : CE V → ℕ
  | .val _ => 0
  | .cst _ _ => 0
  | .bin b x y => x.subs + y.subs + if b = .sub then 1 else 0
  | .mm x y => x.subs + y.subs
  | .other _ x y => x.subs + y.subs

/-- The number of constants that are not combined with a constant. -/
def CE.loose : CE V → ℕ
  | .val _ => 0
  | .cst _ _ => 1
  | .bin _ x y => if isConst x && isConst y then 0 else x.loose + y.loose
  | .mm x y => x.loose + y.loose
  | .other _ x y => x.loose + y.loose

/-- The number of other atoms, a combination of two constants being one. -/
def CE.atoms : CE V → ℕ
  | .val _ => 1
  | .cst _ _ => 0
  | .bin _ x y => if isConst x && isConst y then 1 else x.atoms + y.atoms
  | .mm x y => x.atoms + y.atoms + 1
  | .other _ x y => x.atoms + y.atoms + 1

/-- The number of pairs of a loose constant and an atom to its right. -/
def CE.inversions : CE V → ℕ
  | .val _ => 0
  | .cst _ _ => 0
  | .bin _ x y => x.inversions + y.inversions + x.loose * y.atoms
  | .mm x y => x.inversions + y.inversions
  | .other _ x y => x.inversions + y.inversions

/-- The number of nodes in right operands, counted once per operator that has them there. -/
def CE.rightness : CE V → ℕ
  | .val _ => 0
  | .cst _ _ => 0
  | .bin _ x y => x.rightness + y.rightness + y.size
  | .mm x y => x.rightness + y.rightness
  | .other _ x y => x.rightness + y.rightness

/-- The measure goes down. -/
def Dec (e e' : CE V) : Prop :=
  e'.size < e.size ∨ (e'.size = e.size ∧ isConst e' = false ∧ isConst e = false ∧
    (e'.subs < e.subs ∨ (e'.subs = e.subs ∧ (e'.loose < e.loose ∨ (e'.loose = e.loose ∧ e'.atoms = e.atoms ∧
      (e'.inversions < e.inversions ∨ (e'.inversions = e.inversions ∧ e'.rightness < e.rightness)))))))

omit [Inhabited V] [DecidableEq V] in
theorem isConst_true {e : CE V} (h : isConst e = true) : ∃ d t, e = .cst d t := by
  cases e with
  | cst d t => exact ⟨d, t, rfl⟩
  | _ => cases h

omit [Inhabited V] [DecidableEq V] in
theorem size_pos (e : CE V) : 0 < e.size := by cases e <;> simp [CE.size]

omit [Inhabited V] [DecidableEq V] in
theorem atoms_pos : ∀ {e : CE V}, isConst e = false → 0 < e.atoms
  | .val _, _ => by simp [CE.atoms]
  | .cst _ _, h => by cases h
  | .bin _ x y, _ => by
    rw [CE.atoms]
    split
    · exact Nat.one_pos
    · rename_i h
      simp only [Bool.and_eq_true, not_and, Bool.not_eq_true] at h
      by_cases hx : isConst x = true
      · have := atoms_pos (h hx)
        omega
      · have := atoms_pos (Bool.not_eq_true _ ▸ hx)
        omega
  | .mm _ _, _ => by simp [CE.atoms]
  | .other _ _ _, _ => by simp [CE.atoms]

omit [Inhabited V] [DecidableEq V] in
theorem isConst_cst (d : Bool) (t : Tensor V) : isConst (.cst d t : CE V) = true := rfl

omit [Inhabited V] [DecidableEq V] in
theorem isConst_bin (b : Bin) (x y : CE V) : isConst (.bin b x y) = false := rfl

theorem apply_dec {A : Alg V} {I : CInfo V} {r : CRule} (hr : r.exists?) {e e' : CE V}
    (h : r.apply A I e = some e') : Dec e e' := by
  have neutral : ∀ (b : Bin) (v : V), neutralOnRhs I b v e = some e' → Dec e e' := by
    intro b v hn
    obtain ⟨t, rfl, -, -, -⟩ := neutralOnRhs_some hn
    left
    simp only [CE.size]
    omega
  cases r with
  | commutative b =>
    obtain ⟨c, x, rfl, hc, hx, rfl⟩ := constCommutative_some h
    obtain ⟨d, t, rfl⟩ := isConst_true hc
    have := atoms_pos hx
    right
    simp only [CE.size, CE.subs, CE.loose, CE.atoms, CE.inversions, isConst_bin, isConst_cst, hx, Bool.and_false,
      Bool.false_and, Bool.false_eq_true, if_false]
    refine ⟨by omega, trivial, trivial, .inr ⟨by omega, .inr ⟨by omega, by omega, .inl ?_⟩⟩⟩
    simp
    omega
  | associative1 b =>
    obtain ⟨x, c1, c2, rfl, hx, h1, h2, rfl⟩ := constAssociative1_some h
    obtain ⟨d1, t1, rfl⟩ := isConst_true h1
    obtain ⟨d2, t2, rfl⟩ := isConst_true h2
    right
    simp only [CE.size, CE.subs, CE.loose, isConst_bin, isConst_cst, hx, Bool.and_false,
      Bool.false_and, Bool.and_true, Bool.false_eq_true, if_false, if_true]
    exact ⟨by first | trivial | omega, trivial, trivial, .inr ⟨by first | trivial | omega, .inl (by omega)⟩⟩
  | associative2 b =>
    obtain ⟨x, c, y, rfl, hx, hc, hy, rfl⟩ := constAssociative2_some h
    obtain ⟨d, t, rfl⟩ := isConst_true hc
    have := atoms_pos hy
    right
    simp only [CE.size, CE.subs, CE.loose, CE.atoms, CE.inversions, isConst_bin, isConst_cst, hx, hy, Bool.and_false,
      Bool.false_and, Bool.and_true, Bool.false_eq_true, if_false]
    refine ⟨by omega, trivial, trivial, .inr ⟨by omega, .inr ⟨by omega, by omega, .inl ?_⟩⟩⟩
    simp only [Nat.add_mul, Nat.mul_zero, Nat.one_mul]
    omega
  | associative3 b =>
    obtain ⟨x, y, c, rfl, hx, hy, hc, rfl⟩ := constAssociative3_some h
    obtain ⟨d, t, rfl⟩ := isConst_true hc
    right
    simp only [CE.size, CE.subs, CE.loose, CE.atoms, CE.inversions, CE.rightness, isConst_bin, isConst_cst, hx, hy,
      Bool.and_false, Bool.false_and, Bool.and_true, Bool.false_eq_true, if_false]
    refine ⟨by omega, trivial, trivial, .inr ⟨by omega, .inr ⟨by omega, by omega, .inr ⟨?_, by omega⟩⟩⟩⟩
    simp
  | associative4 b =>
    obtain ⟨x, c1, y, c2, rfl, hx, h1, hy, h2, rfl⟩ := constAssociative4_some h
    obtain ⟨d1, t1, rfl⟩ := isConst_true h1
    obtain ⟨d2, t2, rfl⟩ := isConst_true h2
    right
    simp only [CE.size, CE.subs, CE.loose, isConst_bin, isConst_cst, hx, hy, Bool.and_false,
      Bool.false_and, Bool.and_true, Bool.false_eq_true, if_false, if_true]
    exact ⟨by first | trivial | omega, trivial, trivial, .inr ⟨by first | trivial | omega, .inl (by omega)⟩⟩
  | fold b =>
    obtain ⟨s, t, u, rfl, -, rfl⟩ := constProp_some h
    left
    simp [CE.size]
  | addZeros => exact neutral _ _ h
  | subZeros => exact neutral _ _ h
  | mulOnes => exact neutral _ _ h
  | divOnes => exact neutral _ _ h
  | subToNeg =>
    obtain ⟨x, t, rfl, hx, rfl⟩ := subConstToNeg_some h
    right
    refine ⟨rfl, rfl, rfl, .inl ?_⟩
    simp [CE.subs]
  | mmZerosLhs =>
    obtain ⟨t, y, s, rfl, -, -, -, rfl⟩ := matMulZerosOnLhs_some h
    left
    have := size_pos y
    simp only [CE.size, constZeroTensor]
    omega
  | mmZerosRhs =>
    obtain ⟨x, t, s, rfl, -, -, -, rfl⟩ := matMulZerosOnRhs_some h
    left
    have := size_pos x
    simp only [CE.size, constZeroTensor]
    omega
  | mmFold =>
    obtain ⟨s, t, u, rfl, -, rfl⟩ := matMulOfConsts_some h
    left
    simp [CE.size]

theorem step_dec {A : Alg V} {I : CInfo V} {e e' : CE V} (h : CStep A I e e') : Dec e e' := by
  induction h with
  | root r hr h => exact apply_dec hr h
  | binL _ ih =>
    rcases ih with h | ⟨h1, h2, h3, h4⟩
    · left
      simp only [CE.size]
      omega
    · right
      simp only [CE.size, CE.subs, CE.loose, CE.atoms, CE.inversions, CE.rightness, isConst_bin, h2, h3,
        Bool.false_and, Bool.false_eq_true, if_false]
      refine ⟨by omega, trivial, trivial, ?_⟩
      rcases h4 with h4 | ⟨h4, h5 | ⟨h5, h6, h7⟩⟩
      · exact .inl (by omega)
      · exact .inr ⟨by omega, .inl (by omega)⟩
      · rw [h5, h6]
        exact .inr ⟨by omega, .inr ⟨rfl, rfl, by omega⟩⟩
  | binR _ ih =>
    rcases ih with h | ⟨h1, h2, h3, h4⟩
    · left
      simp only [CE.size]
      omega
    · right
      simp only [CE.size, CE.subs, CE.loose, CE.atoms, CE.inversions, CE.rightness, isConst_bin, h2, h3,
        Bool.and_false, Bool.false_eq_true, if_false]
      refine ⟨by omega, trivial, trivial, ?_⟩
      rcases h4 with h4 | ⟨h4, h5 | ⟨h5, h6, h7⟩⟩
      · exact .inl (by omega)
      · exact .inr ⟨by omega, .inl (by omega)⟩
      · rw [h5, h6]
        exact .inr ⟨by omega, .inr ⟨rfl, rfl, by omega⟩⟩
  | mmL _ ih =>
    rcases ih with h | ⟨h1, h2, h3, h4⟩
    · left
      simp only [CE.size]
      omega
    · right
      simp only [CE.size, CE.subs, CE.loose, CE.atoms, CE.inversions, CE.rightness]
      refine ⟨by omega, rfl, rfl, ?_⟩
      omega
  | mmR _ ih =>
    rcases ih with h | ⟨h1, h2, h3, h4⟩
    · left
      simp only [CE.size]
      omega
    · right
      simp only [CE.size, CE.subs, CE.loose, CE.atoms, CE.inversions, CE.rightness]
      refine ⟨by omega, rfl, rfl, ?_⟩
      omega
  | otherL _ ih =>
    rcases ih with h | ⟨h1, h2, h3, h4⟩
    · left
      simp only [CE.size]
      omega
    · right
      simp only [CE.size, CE.subs, CE.loose, CE.atoms, CE.inversions, CE.rightness]
      refine ⟨by omega, rfl, rfl, ?_⟩
      omega
  | otherR _ ih =>
    rcases ih with h | ⟨h1, h2, h3, h4⟩
    · left
      simp only [CE.size]
      omega
    · right
      simp only [CE.size, CE.subs, CE.loose, CE.atoms, CE.inversions, CE.rightness]
      refine ⟨by omega, rfl, rfl, ?_⟩
      omega

/-- The measure of an expression, compared lexicographically. -/
def CE.measure (e : CE V) : ℕ ×ₗ ℕ ×ₗ ℕ ×ₗ ℕ ×ₗ ℕ :=
  toLex (e.size, toLex (e.subs, toLex (e.loose, toLex (e.inversions, e.rightness))))

omit [Inhabited V] [DecidableEq V] in
theorem Dec.lt {e e' : CE V} (h : Dec e e') : e'.measure < e.measure := by
  unfold CE.measure
  simp only [Prod.Lex.lt_iff, ofLex_toLex]
  rcases h with h | ⟨h1, -, -, h | ⟨h2, h | ⟨h3, -, h | ⟨h4, h⟩⟩⟩⟩
  · exact .inl h
  · exact .inr ⟨h1, .inl h⟩
  · exact .inr ⟨h1, .inr ⟨h2, .inl h⟩⟩
  · exact .inr ⟨h1, .inr ⟨h2, .inr ⟨h3, .inl h⟩⟩⟩
  · exact .inr ⟨h1, .inr ⟨h2, .inr ⟨h3, .inr ⟨h4, h⟩⟩⟩⟩

omit [Inhabited V] [DecidableEq V] in
theorem dec_wf : WellFounded fun e' e : CE V => Dec e e' :=
  Subrelation.wf (r := InvImage (· < ·) CE.measure) (fun h => h.lt) (InvImage.wf _ wellFounded_lt)

end Verif.ConstProp
