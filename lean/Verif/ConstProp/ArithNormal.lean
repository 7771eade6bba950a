import Verif.ConstProp.ArithTerm

/-! # What is left when no pattern applies -/

namespace Verif.ConstProp

open Verif.Rewrite

variable {V : Type} [Inhabited V] [DecidableEq V]

/-- The number of constants among the operands of a tree of one operator. -/
def CE.constants (b : Bin) : CE V → ℕ
  | .cst _ _ => 1
  | .bin b' x y => if b' = b then x.constants b + y.constants b else 0
  | _ => 0

/-- All constants are dense. -/
def CE.AllDense : CE V → Prop
  | .val _ => True
  | .cst d _ => d = true
  | .bin _ x y => x.AllDense ∧ y.AllDense
  | .mm x y => x.AllDense ∧ y.AllDense
  | .other _ x y => x.AllDense ∧ y.AllDense

/-- Nothing keeps the patterns from applying. -/
structure CInfo.Permissive (I : CInfo V) : Prop where
  oneUse : ∀ e, I.oneUse e = true
  bounded : ∀ e, I.bounded e = true
  notScalar : ∀ e, isScalarType (I.ty e) = false

/-- No pattern applies anywhere. -/
def Stuck (A : Alg V) (I : CInfo V) (e : CE V) : Prop := ∀ e', ¬ CStep A I e e'

omit [Inhabited V] [DecidableEq V] in
theorem asBin_bin (b : Bin) (x y : CE V) : asBin b (.bin b x y) = some (x, y) := if_pos rfl

theorem stuck_constants {A : Alg V} {I : CInfo V} (hI : I.Permissive) {F : ℕ → Tensor V → Tensor V → Option (Tensor V)}
    {env : ℕ → Tensor V} {b : Bin} (hb : b = .add ∨ b = .mul) : ∀ e : CE V, Stuck A I e → e.AllDense →
    (e.eval A F env).isSome → e.constants b = 0 ∨ (e.constants b = 1 ∧ isConst e = true) ∨
      ∃ x c, e = .bin b x c ∧ isConst x = false ∧ isConst c = true ∧ e.constants b = 1
  | .val _, _, _, _ => .inl rfl
  | .cst _ _, _, _, _ => .inr (.inl ⟨rfl, rfl⟩)
  | .mm _ _, _, _, _ => .inl rfl
  | .other _ _ _, _, _, _ => .inl rfl
  | .bin b' x y, hs, hd, he => by
    by_cases hbb : b' = b
    swap
    · left
      rw [CE.constants, if_neg hbb]
    subst hbb
    have hx : Stuck A I x := fun x' h => hs _ (.binL h)
    have hy : Stuck A I y := fun y' h => hs _ (.binR h)
    rw [CE.eval, Option.isSome_iff_exists] at he
    obtain ⟨z, he⟩ := he
    obtain ⟨s, e1, he⟩ := Option.bind_eq_some_iff.1 he
    obtain ⟨t, e2, e3⟩ := Option.bind_eq_some_iff.1 he
    have ihx := stuck_constants hI hb x hx hd.1 (by rw [e1]; rfl)
    have ihy := stuck_constants hI hb y hy hd.2 (by rw [e2]; rfl)
    have hex : ∀ r : Bin → CRule, (∀ b, (r b).exists? = (decide (b = .add) || decide (b = .mul))) →
        (r b').exists? = true := by
      intro r hr
      rw [hr]
      rcases hb with h | h <;> rw [h] <;> rfl
    have hc : (CE.bin b' x y).constants b' = x.constants b' + y.constants b' := by rw [CE.constants, if_pos rfl]
    -- the left operand is no constant
    have nx : isConst x = false := by
      by_contra h
      rw [Bool.not_eq_false] at h
      obtain ⟨d, t1, rfl⟩ := isConst_true h
      by_cases h2 : isConst y = true
      · obtain ⟨d2, t2, rfl⟩ := isConst_true h2
        obtain ⟨hd1, hd2⟩ := hd
        have hd1' : d = true := hd1
        have hd2' : d2 = true := hd2
        subst hd1' hd2'
        cases e1
        cases e2
        refine hs (.cst true z) (.root (.fold b') rfl ?_)
        show constProp A I b' _ = _
        unfold constProp
        rw [asBin_bin, Option.bind_some]
        dsimp only
        rw [show dense? (.cst true s : CE V) = some s from rfl, show dense? (.cst true t : CE V) = some t from rfl,
          Option.bind_some, Option.bind_some, if_pos (hI.bounded _), e3]
        rfl
      · refine hs (.bin b' y (.cst d t1)) (.root (.commutative b') (hex .commutative fun _ => rfl) ?_)
        show constCommutative b' _ = _
        unfold constCommutative
        rw [asBin_bin, Option.bind_some]
        dsimp only
        rw [if_pos (by rw [isConst_cst, Bool.eq_false_iff.2 h2]; rfl)]
    -- it has no constant on its right
    have cx : x.constants b' = 0 := by
      rcases ihx with h | ⟨-, h⟩ | ⟨x', c, rfl, h1, h2, -⟩
      · exact h
      · rw [nx] at h; cases h
      · exfalso
        by_cases h3 : isConst y = true
        · refine hs (.bin b' x' (.bin b' c y)) (.root (.associative1 b') (hex .associative1 fun _ => rfl) ?_)
          show constAssociative1 I b' _ = _
          unfold constAssociative1
          rw [asBin_bin, Option.bind_some]
          dsimp only
          rw [asBin_bin, Option.bind_some]
          dsimp only
          rw [if_pos (by rw [h1, h2, h3, hI.oneUse]; rfl)]
        · refine hs (.bin b' (.bin b' x' y) c) (.root (.associative2 b') (hex .associative2 fun _ => rfl) ?_)
          show constAssociative2 I b' _ = _
          unfold constAssociative2
          rw [asBin_bin, Option.bind_some]
          dsimp only
          rw [asBin_bin, Option.bind_some]
          dsimp only
          rw [if_pos (by
            rw [h1, h2, Bool.eq_false_iff.2 h3, hI.oneUse, hI.notScalar, hI.notScalar]; rfl)]
    rcases ihy with h | ⟨h, h'⟩ | ⟨y', c, rfl, h1, h2, -⟩
    · left
      rw [hc, cx, h]
    · exact .inr (.inr ⟨x, y, rfl, nx, h', by rw [hc, cx, h]⟩)
    · exfalso
      refine hs (.bin b' (.bin b' x y') c) (.root (.associative3 b') (hex .associative3 fun _ => rfl) ?_)
      show constAssociative3 I b' _ = _
      unfold constAssociative3
      rw [asBin_bin, Option.bind_some]
      dsimp only
      rw [asBin_bin, Option.bind_some]
      dsimp only
      rw [if_pos (by rw [h1, h2, nx, hI.oneUse, hI.notScalar, hI.notScalar]; rfl)]

/-! ### What shape inference finds out -/

/-- Types with all extents known. -/
def exactInfo (A : Alg V) (F : ℕ → Tensor V → Tensor V → Option (Tensor V)) (env : ℕ → Tensor V) (int : Bool) :
    CInfo V where
  ty e := match e.eval A F env, e with
    | some t, _ => some (t.shape.map some)
    | none, .bin _ _ (.cst _ c) => some (c.shape.map some)
    | none, _ => some []
  oneUse _ := true
  intType _ := int
  bounded _ := true

omit [DecidableEq V] in
theorem forall2_exact (s : List ℕ) :
    List.Forall₂ (fun d n => d = none ∨ d = some n) (s.map some) s := by
  rw [List.forall₂_map_left_iff]
  exact List.forall₂_same.2 fun n _ => .inr rfl

theorem honest_exact (A : Alg V) (F : ℕ → Tensor V → Tensor V → Option (Tensor V)) (env : ℕ → Tensor V) (int : Bool) :
    Honest A F env (exactInfo A F env int) where
  types e t h := by
    have : (exactInfo A F env int).ty e = some (t.shape.map some) := by
      simp only [exactInfo, h]
    rw [this]
    exact forall2_exact _
  settled b x d c := by
    rcases h : (CE.bin b x (.cst d c)).eval A F env with _ | t
    · have : (exactInfo A F env int).ty (.bin b x (.cst d c)) = some (c.shape.map some) := by
        simp only [exactInfo, h]
      rw [this]
      refine ⟨by simp, fun k hk _ => ?_⟩
      simp only [List.length_map, Nat.sub_self, Nat.zero_add]
      rw [List.getD_eq_getElem _ _ (by simpa using hk), List.getElem_map, List.getD_eq_getElem _ _ hk]
    · have : (exactInfo A F env int).ty (.bin b x (.cst d c)) = some (t.shape.map some) := by
        simp only [exactInfo, h]
      rw [this]
      rw [CE.eval] at h
      obtain ⟨s, -, h⟩ := Option.bind_eq_some_iff.1 h
      obtain ⟨c', e2, e3⟩ := Option.bind_eq_some_iff.1 h
      cases e2
      unfold binary at e3
      obtain ⟨r, e4, e5⟩ := Option.map_eq_some_iff.1 e3
      have hb := bto_bshape_right e4
      have hr : t.shape = r := by rw [← e5]; rfl
      rw [← hr] at hb
      refine ⟨by simpa using hb.1, fun k hk hk1 => ?_⟩
      have hlt : t.shape.length - c.shape.length + k < t.shape.length := by have := hb.1; omega
      rw [List.length_map, List.getD_eq_getElem _ _ (by simpa using hlt), List.getElem_map]
      rcases hb.2 k hk with h6 | h6
      · exact absurd h6 hk1
      · rw [h6, List.getD_eq_getElem _ _ hlt]
  ranked e := by
    unfold exactInfo
    dsimp only
    split <;> simp

end Verif.ConstProp
